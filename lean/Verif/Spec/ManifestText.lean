import Verif.Model.Bytes
import Verif.Spec.Best

/-! What a `key = value` text says, independent of how it is scanned. -/
namespace Alaya.ManifestText
open Alaya

/-- The text is these lines joined by newlines. -/
def IsLines (sep : UInt8) (text : Bytes) (ls : List Bytes) : Prop :=
  ls ≠ [] ∧ (∀ l ∈ ls, sep ∉ l) ∧ text = [sep].intercalate ls

def Ws (c : UInt8) : Prop := c = 32 ∨ c = 9 ∨ c = 13 ∨ c = 10

/-- `s` is `l` without surrounding blanks. -/
def Trim (l s : Bytes) : Prop :=
  ∃ a b, l = a ++ s ++ b ∧ (∀ c ∈ a, Ws c) ∧ (∀ c ∈ b, Ws c) ∧
    (∀ c, s.head? = some c → ¬ Ws c) ∧ (∀ c, s.getLast? = some c → ¬ Ws c)

/-- What one line says: nothing (blank or comment) or an entry. -/
inductive LineMeans : Bytes → Option (Bytes × Bytes) → Prop
  | blank (l) : Trim l [] → LineMeans l none
  | comment (l r) : Trim l (35 :: r) → LineMeans l none
  | entry (l a b k v) : Trim l (a ++ 61 :: b) → (a ++ 61 :: b).head? ≠ some 35 → 61 ∉ a → Trim a k → Trim b v →
      LineMeans l (some (k, v))

/-- The entries of the lines in order. -/
inductive LinesMean : List Bytes → List (Bytes × Bytes) → Prop
  | nil : LinesMean [] []
  | skip (l ls es) : LineMeans l none → LinesMean ls es → LinesMean (l :: ls) es
  | entry (l ls k v es) : LineMeans l (some (k, v)) → LinesMean ls es → LinesMean (l :: ls) ((k, v) :: es)

/-- The text consists of these entries. -/
def TextMeans (text : Bytes) (es : List (Bytes × Bytes)) : Prop := ∃ ls, IsLines 10 text ls ∧ LinesMean ls es

end Alaya.ManifestText
