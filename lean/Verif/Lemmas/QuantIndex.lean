import Verif.Model.QuantIndex
import Verif.Spec.QuantIndex
import Verif.Props.C67
import Verif.Props.C69

/-! Lemmas for C94. -/
namespace Alaya.QuantIndex
open Alaya Alaya.Pools Alaya.Spec Alaya.MemSearch Alaya.MemSearch.Spec Alaya.GraphUpdate Alaya.GraphUpdate.Spec Alaya.QuantIndex.Spec

/-- At the end of a walk the pool holds all reachable nodes, or it is full. -/
theorem MInv.full {g : MGraph} {n : Nat} {S : List Nat} {dist : Nat → Int} {ef : Nat} {s : St} {popped : List (Nat × Int)}
    (h : MInv g n S dist ef s popped []) (hu : s.pool.hasNext = false) (hS : ∀ v ∈ S, v ∈ s.seen) {R : List Nat} (hR : R.Nodup)
    (hRr : ∀ i ∈ R, Reach g.rows S i) : min ef R.length ≤ s.pool.entries.length := by
  by_cases hs : s.seen.length ≤ ef
  · have hall := (h.all hu hS (R := s.seen ++ []) ?_ (by simpa using hs)).2
    · have h1 := nodup_subset_length hR (fun i hi => hall i (hRr i hi))
      have h2 := h.q.best.2.1
      rw [List.length_map] at h2
      omega
    · intro i hi
      rw [List.append_nil]
      obtain ⟨_, hlen, rest, hp, -⟩ := h.q.best
      have hrest : rest = [] := by
        have h1 := hp.length_eq
        simp only [List.length_append, List.length_map] at h1 hlen
        exact List.length_eq_zero_iff.mp (by omega)
      subst hrest
      rw [List.append_nil] at hp
      induction hi with
      | seed hv => exact hS _ hv
      | step _ hm ih =>
        have := LInv.all_popped h.q hu _ (hp.mem_iff.mp (List.mem_map.mpr ⟨_, ih, rfl⟩))
        rcases h.closed _ this _ hm with h' | h'
        · exact h'
        · cases h'
  · have h2 := h.q.best.2.1
    rw [List.length_map] at h2
    omega

/-- A search with reranking on a graph in order. -/
theorem rerank_walk (H : TopK.StdHeap TopK.Hit TopK.Hit.lt) (g : MGraph) (n : Nat) (hg : GraphOk g n) (dist exact : Nat → Int)
    (topk ef : Nat) (hef : 0 < ef) (hk : topk ≤ ef) (invalid : TopK.Hit) :
    ∃ (S cands : List Nat) (best : List TopK.Hit), Seeds g n dist S ∧ cands.Nodup ∧ cands.length ≤ ef ∧ (∀ c ∈ cands, c < n ∧ Reach g.rows S c) ∧
      (∀ R : List Nat, R.Nodup → (∀ i ∈ R, Reach g.rows S i) → min ef R.length ≤ cands.length) ∧
      Best TopK.hitLe topk best (cands.map (fun i => (⟨i, exact i⟩ : TopK.Hit))) ∧
      (∀ extra, soloRerank H g n dist exact topk ef (n + 1 + extra) invalid =
        some (some (best ++ List.replicate (topk - min topk cands.length) invalid))) := by
  obtain ⟨S, s, popped, e, h, hu, hS, ha, hb⟩ := walk_spec hg dist hef
  obtain ⟨best, hbest, eb⟩ := TopK.C29_rerank_exact H exact (s.pool.entries.map Prod.fst) topk invalid
  have hnd : (s.pool.entries.map Prod.fst).Nodup := by
    obtain ⟨_, _, rest, hp, _⟩ := h.q.best
    have := (hp.map Prod.fst).nodup_iff.mp h.candNodup
    rw [List.map_append] at this
    exact (List.nodup_append.mp this).1
  refine ⟨S, s.pool.entries.map Prod.fst, best, ⟨ha, hb⟩, hnd, ?_, ?_, ?_, hbest, ?_⟩
  · rw [List.length_map, h.q.best.2.1]; omega
  · intro c hc
    obtain ⟨x, hx, rfl⟩ := List.mem_map.mp hc
    obtain ⟨t, ht, rfl⟩ := List.mem_map.mp (Best.mem h.q.best hx)
    exact ⟨h.lt t ht, h.reach t ht⟩
  · intro R hR hRr
    rw [List.length_map]
    exact MInv.full h hu hS hR hRr
  · intro extra
    unfold soloRerank
    rw [if_neg (by omega), e extra]
    simp only
    rw [eb]

variable {V C : Type} {enc : V → C} {dq : C → C → Int} {junk : C → Nat → Int} {ord : List Nat → List Nat} {d : V → V → Int} {fmax : Int}

/-- The rows as the specification sees them. -/
def QIx.abs (s : QIx V C) : List (V × Bool) := s.raw.zip s.rawLive

/-- Between two calls: graph and codes are in order, the code of every row is the code of its vector, and both spaces agree on the
removed rows and on their capacity. -/
structure QInv (enc : V → C) (s : QIx V C) : Prop where
  ix : Inv s.ix
  code : s.ix.vecs = s.raw.map enc
  live : s.rawLive = s.ix.live
  cap : s.rawCap = s.ix.g.rows.length

theorem QInv.len {s : QIx V C} (h : QInv enc s) : s.ix.vecs.length = s.raw.length := by rw [h.code, List.length_map]

theorem QInv.llen {s : QIx V C} (h : QInv enc s) : s.rawLive.length = s.raw.length := by
  rw [h.live, h.ix.core.live, h.len]

theorem QInv.absLen {s : QIx V C} (h : QInv enc s) : s.abs.length = s.raw.length := by
  unfold QIx.abs
  rw [List.length_zip, h.llen]; omega

theorem zip_map_left' {A B : Type} (f : V → A) (l : List V) (m : List B) : (l.map f).zip m = (l.zip m).map (fun x => (f x.1, x.2)) := by
  induction l generalizing m with
  | nil => simp
  | cons a l ih => cases m with
    | nil => simp
    | cons b m => simp [ih]

/-- The rows of the quantised space. -/
theorem QInv.absIx {s : QIx V C} (h : QInv enc s) : s.ix.abs = s.abs.map (fun x => (enc x.1, x.2)) := by
  unfold Ix.abs QIx.abs
  rw [h.code, h.live, zip_map_left']

theorem abs_split {A : Type} {s : Ix A} (h : Inv s) : s.abs.map Prod.fst = s.vecs ∧ s.abs.map Prod.snd = s.live := by
  unfold Ix.abs
  exact ⟨List.map_fst_zip (by rw [h.core.live]; exact Nat.le_refl _), List.map_snd_zip (by rw [h.core.live]; exact Nat.le_refl _)⟩

/-- One insertion. -/
theorem insert_step (ho : ∀ l, (ord l).Perm l) (s : QIx V C) (h : QInv enc s) (q : V) (ef : Nat) (hef : s.ix.maxNbrs ≤ ef) :
    (s.rawCap ≤ s.raw.length → ∀ extra, s.insert enc dq junk ord q ef (s.raw.length + 1 + extra) = some (some (s, none))) ∧
    (s.raw.length < s.rawCap → ∃ s', QInv enc s' ∧ s'.abs = s.abs ++ [(q, true)] ∧ s'.rawCap = s.rawCap ∧
      s'.ix.maxNbrs = s.ix.maxNbrs ∧
      (∀ extra, s.insert enc dq junk ord q ef (s.raw.length + 1 + extra) = some (some (s', some s.raw.length)))) := by
  obtain ⟨hfull, hroom⟩ := C69_insert (near := nearCode dq junk) ho s.ix h.ix (enc q) ef hef
  rw [h.len, ← h.cap] at hfull hroom
  refine ⟨?_, ?_⟩
  · intro hc extra
    unfold QIx.insert
    rw [hfull hc extra]
  · intro hc
    obtain ⟨x, i1, a1, l1, m1, e1, -⟩ := hroom hc
    have habs := h.absIx
    have hx := abs_split i1
    rw [a1, List.map_append, List.map_append] at hx
    have hs := abs_split h.ix
    rw [hs.1, hs.2] at hx
    refine ⟨⟨x, s.raw ++ [q], s.rawLive ++ [true], s.rawCap⟩, ⟨i1, ?_, ?_, ?_⟩, ?_, rfl, m1, ?_⟩
    · rw [← hx.1, h.code]; simp
    · rw [← hx.2, h.live]; simp
    · rw [l1]
    · unfold QIx.abs
      exact List.zip_append (by rw [h.llen])
    · intro extra
      unfold QIx.insert
      rw [e1 extra]
      simp only
      rw [if_pos (by unfold QIx.rawId; rw [if_pos hc])]

/-- One removal. -/
theorem remove_step (s : QIx V C) (h : QInv enc s) (id : Nat) (hid : id < s.raw.length) (h2 : 2 ≤ s.raw.length) :
    ∃ s', s.remove id = some s' ∧ QInv enc s' ∧ s'.abs = s.abs.modify id (fun x => (x.1, false)) ∧ s'.rawCap = s.rawCap ∧
      s'.ix.maxNbrs = s.ix.maxNbrs := by
  obtain ⟨x, e, i1, a1, g1, m1⟩ := C69_remove s.ix h.ix id (by rw [h.len]; exact hid) (by rw [h.len]; exact h2)
  have hx := abs_split i1
  have hv : x.vecs = s.ix.vecs ∧ x.live = s.ix.live.set id false := by
    have e' := e
    unfold Ix.remove at e'
    split at e'
    · cases e'
    · cases e'; exact ⟨rfl, rfl⟩
  refine ⟨⟨x, s.raw, s.rawLive.set id false, s.rawCap⟩, ?_, ⟨i1, by rw [hv.1]; exact h.code, by rw [hv.2, ← h.live], by rw [g1]; exact h.cap⟩,
    ?_, rfl, m1⟩
  · unfold QIx.remove
    rw [e]
  · unfold QIx.abs
    exact zip_set _ _ _ _

/-- The distance of the build space is the one of the specification. -/
theorem exact_score {s : QIx V C} (h : QInv enc s) (q : V) (u : Nat) : (⟨u, s.exact d fmax q u⟩ : TopK.Hit) = score d fmax s.abs q u := by
  unfold QIx.exact score QIx.abs
  have hl := h.llen
  by_cases hu : u < s.raw.length
  · have h1 : s.raw[u]? = some s.raw[u] := List.getElem?_eq_getElem hu
    have h2 : s.rawLive[u]? = some (s.rawLive[u]'(by omega)) := List.getElem?_eq_getElem (by omega)
    have h3 : (s.raw.zip s.rawLive)[u]? = some (s.raw[u], s.rawLive[u]'(by omega)) := by
      rw [List.getElem?_eq_getElem (by rw [List.length_zip]; omega), List.getElem_zip]
    rw [h3, h1, List.getD_eq_getElem?_getD, h2]
    simp only [Option.getD_some]
    cases s.rawLive[u]'(by omega) <;> rfl
  · have h1 : s.raw[u]? = none := List.getElem?_eq_none (by omega)
    have h3 : (s.raw.zip s.rawLive)[u]? = none := List.getElem?_eq_none (by rw [List.length_zip]; omega)
    rw [h1, h3]
    cases s.rawLive.getD u false <;> rfl

end Alaya.QuantIndex
