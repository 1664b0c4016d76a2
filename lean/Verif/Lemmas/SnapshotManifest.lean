import Verif.Model.SnapshotManifest
import Verif.Lemmas.DecimalParse

namespace Alaya

theorem getlines_line (l rest cur : Bytes) (h : chNL ∉ l) :
    getlines cur (l ++ chNL :: rest) = (cur ++ l) :: getlines [] rest := by
  induction l generalizing cur with
  | nil => simp [getlines]
  | cons c l ih =>
    have hc : c ≠ chNL := fun e => h (by simp [e])
    simp only [List.cons_append, getlines]
    rw [if_neg hc, ih _ (fun hm => h (by simp [hm]))]
    simp

theorem getlines_lines (ls : List Bytes) (h : ∀ l ∈ ls, chNL ∉ l) :
    getlines [] (ls.map (fun l => l ++ [chNL])).flatten = ls := by
  induction ls with
  | nil => rfl
  | cons l ls ih =>
    simp only [List.map_cons, List.flatten_cons, List.append_assoc, List.singleton_append]
    rw [getlines_line l _ [] (h l (by simp)), ih (fun x hx => h x (by simp [hx]))]
    rfl

theorem splitEq_kvLine (key value : Bytes) (h : chEq ∉ key) : splitEq (kvLine key value) = some (key, value) := by
  unfold kvLine
  induction key with
  | nil => simp [splitEq]
  | cons c key ih =>
    have hc : c ≠ chEq := fun e => h (by simp [e])
    simp only [List.cons_append, splitEq]
    rw [if_neg hc, ih (fun hm => h (by simp [hm]))]

theorem dropCR_kvLine (key value : Bytes) (h : value.getLast? ≠ some chCR) :
    dropCR (kvLine key value) = kvLine key value := by
  unfold dropCR
  rw [if_neg]
  intro hl
  unfold kvLine at hl
  cases value with
  | nil => simp at hl; exact absurd hl (by decide)
  | cons v vs =>
    rw [List.getLast?_append, List.getLast?_cons_cons] at hl
    cases hg : (v :: vs).getLast? with
    | none => simp at hg
    | some x =>
      rw [hg] at hl h
      simp at hl
      exact h (by rw [hl])

/-- A string that survives a line: no newline, no trailing carriage return. -/
def LineSafe (v : Bytes) : Prop := chNL ∉ v ∧ v.getLast? ≠ some chCR

instance (v : Bytes) : Decidable (LineSafe v) := inferInstanceAs (Decidable (_ ∧ _))

theorem decStr_lineSafe (n : Nat) : LineSafe (decStr n) := by
  have hd : ∀ c ∈ decStr n, 48 ≤ c.toNat ∧ c.toNat ≤ 57 := (decStr_isDecimal n).2.1
  refine ⟨?_, ?_⟩
  · intro h
    exact absurd (hd _ h) (by decide)
  · intro h
    exact absurd (hd _ (List.mem_of_getLast? h)) (by decide)

theorem parseLine_kv (key value : Bytes) (hk : chEq ∉ key) (hv : value.getLast? ≠ some chCR) :
    splitEq (dropCR (kvLine key value)) = some (key, value) := by
  rw [dropCR_kvLine key value hv, splitEq_kvLine key value hk]

end Alaya
