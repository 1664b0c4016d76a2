import Verif.Model.IndexFile
import Verif.Lemmas.Bytes
import Verif.Props.C21

namespace Alaya.IndexFile
open Alaya.MemSearch Alaya.GraphUpdate Alaya.Spec

theorem lt4 {n : Nat} (h : n < 2 ^ 32) : n < 256 ^ 4 := by
  have e : (256 : Nat) ^ 4 = 2 ^ 32 := by decide
  rw [e]; exact h

theorem lt8 {n : Nat} (h : n < 2 ^ 64) : n < 256 ^ 8 := by
  have e : (256 : Nat) ^ 8 = 2 ^ 64 := by decide
  rw [e]; exact h

theorem rdNat_le {w n : Nat} (h : n < 256 ^ w) (rest : Bytes) : rdNat w (leBytes w n ++ rest) = some (n, rest) := by
  unfold rdNat
  rw [splitN_append' (leBytes_length w n)]
  simp only [leNat_leBytes_of_lt h]

theorem idBytes_length (w : Nat) (l : List Nat) : (idBytes w l).length = l.length * w := by
  induction l with
  | nil => simp [idBytes]
  | cons v l ih => simp only [idBytes, List.length_append, leBytes_length, ih, List.length_cons, Nat.succ_mul]; omega

theorem idsOf_idBytes (w : Nat) (l : List Nat) (h : ∀ v ∈ l, v < 256 ^ w) (rest : Bytes) :
    idsOf w l.length (idBytes w l ++ rest) = l := by
  induction l with
  | nil => rfl
  | cons v l ih =>
    have hl := leBytes_length w v
    simp only [idBytes, List.length_cons, idsOf, List.append_assoc]
    rw [List.take_append_of_le_length (by omega), List.take_of_length_le (by omega), List.drop_append_of_le_length (by omega),
      List.drop_of_length_le (by omega), List.nil_append, ih (fun x hx => h x (List.mem_cons_of_mem _ hx)),
      leNat_leBytes_of_lt (h v List.mem_cons_self)]

/-- The upper layers fit the file format. -/
structure OverOk (o : Over) : Prop where
  nodes : o.nodeNum < 2 ^ 32
  nbrs : 0 < o.maxNbrs ∧ o.maxNbrs < 2 ^ 32
  ep : o.ep < 2 ^ 32
  levels : o.levels.length = o.nodeNum
  lists : o.lists.length = o.nodeNum
  list : ∀ p ∈ o.levels.zip o.lists, p.2.length = p.1 * o.maxNbrs ∧ p.2.length < 2 ^ 31 ∧ ∀ v ∈ p.2, v < 2 ^ 32

theorem lists_roundtrip (m : Nat) (hm : 0 < m) : ∀ (lvs : List Nat) (ls : List (List Nat)), lvs.length = ls.length →
    (∀ p ∈ lvs.zip ls, p.2.length = p.1 * m ∧ p.2.length < 2 ^ 31 ∧ ∀ v ∈ p.2, v < 2 ^ 32) →
    ∃ bs, saveLists 4 m lvs ls = some bs ∧ ∀ rest, loadLists 4 m lvs.length (bs ++ rest) = some (lvs, ls, rest) := by
  intro lvs
  induction lvs with
  | nil =>
    intro ls hl _
    cases ls with
    | nil => exact ⟨[], rfl, fun rest => rfl⟩
    | cons _ _ => simp at hl
  | cons lv lvs ih =>
    intro ls hl h
    cases ls with
    | nil => simp at hl
    | cons l ls =>
      obtain ⟨h1, h2, h3⟩ := h (lv, l) (by simp)
      simp only at h1 h2 h3
      obtain ⟨bs, e, g⟩ := ih ls (by simpa using hl) (fun p hp => h p (by simp [hp]))
      have hlen := idBytes_length 4 l
      refine ⟨leBytes 4 (lv * m) ++ ((idBytes 4 l).take (lv * m * 4) ++ bs), ?_, ?_⟩
      · simp only [saveLists]
        rw [if_pos (by rw [h1]; exact Nat.le_refl _), e]
      · intro rest
        have ht : (idBytes 4 l).take (lv * m * 4) = idBytes 4 l := by
          rw [List.take_of_length_le]; rw [hlen, h1]; exact Nat.le_refl _
        rw [ht]
        simp only [List.length_cons, loadLists, List.append_assoc]
        rw [rdNat_le (lt4 (n := lv * m) (by rw [← h1]; omega))]
        simp only
        rw [if_pos ⟨by rw [← h1]; exact h2, hm⟩, splitN_append' (by rw [hlen, h1])]
        simp only
        rw [g rest]
        simp only [Nat.sub_self, List.replicate_zero]
        rw [Nat.mul_div_cancel _ hm, ← h1, idsOf_idBytes 4 l (fun v hv => lt4 (h3 v hv))]

theorem setLow_small {a b : Nat} (h : a < 2 ^ 32) : setLow a b = b := by
  unfold setLow
  generalize hn : (2 : Nat) ^ 32 = n at h
  rw [Nat.div_eq_of_lt h, Nat.mul_zero, Nat.zero_add]

theorem over_load {w maxNodes maxNbrs ep0 a b c : Nat} {file f1 f2 f3 rest : Bytes} {lvs : List Nat} {ls : List (List Nat)}
    (h1 : rdNat 4 file = some (a, f1)) (h2 : rdNat 4 f1 = some (b, f2)) (h3 : rdNat 4 f2 = some (c, f3))
    (h4 : loadLists w (setLow maxNbrs b) (setLow maxNodes a) f3 = some (lvs, ls, rest)) :
    Over.load w maxNodes maxNbrs ep0 file = some (⟨setLow maxNodes a, setLow maxNbrs b, setLow ep0 c, lvs, ls⟩, rest) := by
  rw [Over.load, h1]
  simp only
  rw [h2]
  simp only
  rw [h3]
  simp only
  rw [h4]

theorem over_roundtrip {o : Over} (h : OverOk o) {maxNodes maxNbrs ep0 : Nat} (h1 : maxNodes < 2 ^ 32) (h2 : maxNbrs < 2 ^ 32)
    (h3 : ep0 < 2 ^ 32) : ∃ bs, o.save 4 = some bs ∧ bs ≠ [] ∧ Over.load 4 maxNodes maxNbrs ep0 bs = some (o, []) := by
  obtain ⟨bs, e, g⟩ := lists_roundtrip o.maxNbrs h.nbrs.1 o.levels o.lists (by rw [h.levels, h.lists]) h.list
  refine ⟨leBytes 4 o.nodeNum ++ (leBytes 4 o.maxNbrs ++ (leBytes 4 o.ep ++ bs)), ?_, ?_, ?_⟩
  · unfold Over.save
    rw [List.take_of_length_le (by rw [h.levels]; exact Nat.le_refl _), e]
  · intro hn
    have := congrArg List.length hn
    simp at this
  · have := g []
    rw [h.levels, List.append_nil] at this
    exact over_load (rdNat_le (lt4 h.nodes) _) (rdNat_le (lt4 h.nbrs.2) _) (rdNat_le (lt4 h.ep) _)
      (by rw [setLow_small h1, setLow_small h2]; exact this) |>.trans (by rw [setLow_small h1, setLow_small h2, setLow_small h3])

theorem fields_roundtrip : ∀ (fs : List Bytes), (∀ f ∈ fs, f.length < 2 ^ 64) → ∀ rest,
    loadFields fs.length (saveFields fs ++ rest) = some (fs, rest) := by
  intro fs
  induction fs with
  | nil => intro _ rest; rfl
  | cons f fs ih =>
    intro h rest
    have hf : f.length < 256 ^ 8 := lt8 (h f List.mem_cons_self)
    simp only [List.length_cons, loadFields, saveFields, List.append_assoc]
    rw [rdNat_le hf]
    simp only
    rw [splitN_append' rfl]
    simp only
    rw [ih (fun x hx => h x (List.mem_cons_of_mem _ hx))]

/-- The configuration fits the file format and has less than 1000 indexed fields. -/
structure ConfigOk (c : Config) : Prop where
  path : c.dbPath.length < 2 ^ 64
  sizes : c.writeBuffer < 2 ^ 64 ∧ c.fileSize < 2 ^ 64 ∧ c.cacheMb < 2 ^ 64
  ints : c.buffers < 2 ^ 32 ∧ c.compactions < 2 ^ 32 ∧ c.flushes < 2 ^ 32
  count : c.fields.length < 1000
  field : ∀ f ∈ c.fields, f.length < 2 ^ 64

theorem config_roundtrip {c : Config} (h : ConfigOk c) (rest : Bytes) : Config.load (c.save ++ rest) = some (c, rest) := by
  obtain ⟨a, ⟨b1, b2, b3⟩, ⟨d1, d2, d3⟩, e, f⟩ := h
  have hc : ∀ r, rdNat 1 ((if c.compress then (1 : UInt8) else 0) :: r) = some (if c.compress then 1 else 0, r) := by
    intro r
    cases c.compress <;> simp [rdNat, splitN, leNat]
  unfold Config.load Config.save
  simp only [List.append_assoc, List.cons_append]
  rw [rdNat_le (lt8 a)]; simp only
  rw [splitN_append' rfl]; simp only
  rw [rdNat_le (lt8 b1)]; simp only
  rw [rdNat_le (lt4 d1)]; simp only
  rw [rdNat_le (lt8 b2)]; simp only
  rw [rdNat_le (lt4 d2)]; simp only
  rw [rdNat_le (lt4 d3)]; simp only
  rw [rdNat_le (lt8 b3)]; simp only
  rw [hc]; simp only
  rw [rdNat_le (lt8 (n := c.fields.length) (by omega))]; simp only
  rw [if_pos e, fields_roundtrip _ f]
  have hz : ((if c.compress then 1 else 0 : Nat) != 0) = c.compress := by cases c.compress <;> rfl
  rw [hz]

end Alaya.IndexFile
