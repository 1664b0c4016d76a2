import Verif.Spec.Best
/-! What a search with a metadata filter may return. -/
namespace Alaya.Hybrid.Spec

/-- The two output arrays hold `hits`: at most `topk` distinct matching rows, nearest first, with their item ids, then padding. -/
structure Answer (sel : Nat → Bool) (exact : Nat → Int) (item : Nat → String) (topk : Nat) (hits : List Nat)
    (out : List (Option Nat) × List String) : Prop where
  ids : out.1 = hits.map some ++ List.replicate (topk - hits.length) none
  items : out.2 = hits.map item ++ List.replicate (topk - hits.length) ""
  len : hits.length ≤ topk
  nodup : hits.Nodup
  sel : ∀ h ∈ hits, sel h = true
  sorted : hits.Pairwise (fun a b => exact a ≤ exact b)

/-- `hits` are the `topk` nearest rows of `cands`. -/
def Nearest (exact : Nat → Int) (topk : Nat) (hits cands : List Nat) : Prop :=
  Alaya.Spec.Best (fun a b => exact a ≤ exact b) topk hits cands

end Alaya.Hybrid.Spec
