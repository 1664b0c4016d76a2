import Verif.Spec.LaserFit
import Verif.Props.C92

/-! The steps of `laser.Index.fit`. -/
namespace Alaya.LaserFit
open Alaya Alaya.Spec

/-- Vectors that fit their description. -/
structure InputOk (A : Args) : Prop where
  hn : 0 < A.input.n ∧ A.input.n < 2 ^ 31
  hd : 0 < A.input.dim ∧ A.input.dim < 2 ^ 31
  hrows : A.input.rows.length = A.input.n ∧ ∀ r ∈ A.input.rows, r.length = 4 * A.input.dim

/-- The steps deliver files that their validators know, and the builder is defined on a graph and a base of this call. -/
structure StepsOk (E : Env) (A : Args) : Prop where
  hText : ∀ s, E.intText s ≠ [] ∧ E.intParse (E.intText s) = some s
  hRow : ∀ p r, r.length = 4 * A.input.dim → (E.pcaRow p r).length = 4 * A.input.dim
  hPca : ∀ s p, E.pcaFit A.raw s = some p → validPca (some p) A.input.dim = true
  hMed : ∀ b s i v, E.medoid b A.ep s = some (i, v) → i ≠ [] ∧ v ≠ []
  hVam : ∀ s r v, E.vamana A.raw A.R A.L A.alpha s r = some v → validVamana (some v) A.R = true
  hDef : ∀ s r r' b v, validBase (some b) A.input.n A.input.dim = true → E.vamana A.raw A.R A.L A.alpha s r = some v →
    E.laser A.input.n A.md A.input.dim A.R s b v r' ≠ none
  hIndex : ∀ s r r' b v x, validBase (some b) A.input.n A.input.dim = true → E.vamana A.raw A.R A.L A.alpha s r = some v →
    E.laser A.input.n A.md A.input.dim A.R s b v r' = some (some x) →
    24 ≤ x.1.length ∧ leNat (x.1.take 8) = A.input.n ∧ leNat ((x.1.drop 8).take 8) = A.md

/-! ### Execution -/

def Res (o : Out) (Q B : Dir → Prop) : Prop :=
  match o with
  | .done d => Q d
  | .raised d => B d
  | .crashed d => B d
  | .undef => False

def StageOk (s : Dir → Stage) (Q Q' B : Dir → Prop) : Prop :=
  ∀ d, Q d → match s d with
    | .write l => Q' (d.apply l) ∧ ∀ g, B (d.garble l g)
    | .raise => B d
    | .undef => False

theorem exec_nil {Q B : Dir → Prop} (c : Crash) (d : Dir) (h : Q d) : Res (exec [] c d) Q B := h

theorem exec_cons {s : Dir → Stage} {ss : List (Dir → Stage)} {Q Q' Q'' B : Dir → Prop} (hs : StageOk s Q Q' B)
    (ht : ∀ c d, Q' d → Res (exec ss c d) Q'' B) (c : Crash) (d : Dir) (h : Q d) : Res (exec (s :: ss) c d) Q'' B := by
  have := hs d h
  unfold exec
  cases hw : s d with
  | raise => rw [hw] at this; exact this
  | undef => rw [hw] at this; exact this.elim
  | write l =>
    rw [hw] at this
    cases c with
    | none => exact ht none _ this.1
    | some x =>
      obtain ⟨k, g⟩ := x
      cases k with
      | zero => exact this.2 g
      | succ k => exact ht _ _ this.1

@[simp] theorem set_apply (d : Dir) (x y : Name) (c : Option Bytes) : (d.set x c) y = if y = x then c else d y := rfl

@[simp] theorem apply_nil (d : Dir) : d.apply [] = d := rfl
@[simp] theorem apply_cons (d : Dir) (x : Name × Option Bytes) (l) : d.apply (x :: l) = (d.set x.1 x.2).apply l := rfl
@[simp] theorem garble_nil (d g : Dir) : d.garble [] g = d := rfl

/-! ### Files -/

theorem i32_le {n : Nat} (h : n < 2 ^ 31) : i32 (leBytes 4 n) = n := by
  unfold i32
  rw [leNat_leBytes_of_lt (by omega), if_pos h]

theorem fbin_fields (n dim : Nat) (rows : Bytes) : (LaserFiles.fbin n dim rows).take 4 = leBytes 4 n ∧
    ((LaserFiles.fbin n dim rows).drop 4).take 4 = leBytes 4 dim ∧ (LaserFiles.fbin n dim rows).length = 8 + rows.length := by
  unfold LaserFiles.fbin
  rw [List.append_assoc]
  refine ⟨List.take_left' (leBytes_length 4 _), ?_, ?_⟩
  · rw [List.drop_left' (leBytes_length 4 _), List.take_left' (leBytes_length 4 _)]
  · simp only [List.length_append, leBytes_length]; omega

theorem valid_fbin {n dim : Nat} (hn : n < 2 ^ 31) (hd : dim < 2 ^ 31) {rows : List Bytes} (hl : rows.length = n) (hr : ∀ r ∈ rows, r.length = 4 * dim) :
    validBase (some (LaserFiles.fbin n dim rows.flatten)) n dim = true := by
  obtain ⟨h1, h2, h3⟩ := fbin_fields n dim rows.flatten
  unfold validBase
  simp only
  rw [h1, h2, h3, i32_le hn, i32_le hd, LaserSeg.blocks_length rows (4 * dim) hr, hl, Nat.mul_comm 4 dim, ← Nat.mul_assoc]
  simp

theorem raw_valid {A : Args} (h : InputOk A) : validBase (some A.raw) A.input.n A.input.dim = true :=
  valid_fbin h.hn.2 h.hd.2 h.hrows.1 h.hrows.2

theorem raw_length {A : Args} (h : InputOk A) : A.raw.length = 8 + A.input.n * A.input.dim * 4 := by
  have := raw_valid h
  unfold validBase at this
  simp only [Bool.and_eq_true, beq_iff_eq] at this
  exact this.1.1

/-- The rows that the PCA step reads are the vectors. -/
theorem raw_rows {A : Args} (h : InputOk A) :
    (List.range A.input.n).map (fun i => ((A.raw.drop (8 + 4 * A.input.dim * i)).take (4 * A.input.dim))) = A.input.rows := by
  have hl := h.hrows.1
  refine List.ext_getElem (by simp [hl]) (fun i h1 h2 => ?_)
  rw [List.getElem_map, List.getElem_range]
  have e : A.raw.drop (8 + 4 * A.input.dim * i) = A.input.rows.flatten.drop (4 * A.input.dim * i) := by
    unfold Args.raw LaserFiles.fbin
    rw [← List.drop_drop, List.drop_left' (by simp only [List.length_append, leBytes_length])]
  rw [e, LaserBuild.flatten_cut h.hrows.2 h2, List.getD_eq_getElem?_getD, List.getElem?_eq_getElem h2]
  rfl

theorem pcaSave_fresh {c n dim : Nat} {old : Option Bytes} {rows : List Bytes} (hn : n < c) (hd : 0 < dim)
    (ho : ∀ b, old = some b → b.length ≤ 8 + n * dim * 4) : pcaSave c n dim old rows = LaserFiles.fbin n dim rows.flatten := by
  unfold pcaSave
  simp only
  rw [if_pos]
  cases old with
  | none => rfl
  | some f =>
    have := ho f rfl
    simp only
    split
    · refine Nat.div_eq_of_lt (Nat.lt_of_le_of_lt ?_ hn)
      have h2 : (f.length - 8) / (dim * 4) ≤ n * (dim * 4) / (dim * 4) := Nat.div_le_div_right (by rw [← Nat.mul_assoc]; omega)
      rwa [Nat.mul_div_cancel _ (by omega)] at h2
    · rfl

/-! ### A rebuild -/

/-- What holds during a rebuild whatever happens. -/
structure Bare (A : Args) (sd : Option Bytes) (d : Dir) : Prop where
  hSeed : d .seed = sd
  hBase : ∀ b, d .base = some b → b.length ≤ 8 + A.input.n * A.input.dim * 4
  hMed : A.disable = true → d .medIdx = none ∧ d .med = none

structure Q1 (A : Args) (sd : Option Bytes) (d : Dir) : Prop where
  bare : Bare A sd d
  raw : A.input.isFile = false → d .raw = some A.raw

structure Q2 (E : Env) (A : Args) (sd : Option Bytes) (d : Dir) : Prop extends Q1 A sd d where
  pca : A.md < A.input.dim → ∃ p, E.pcaFit A.raw A.seed = some p ∧ d .pca = some p ∧
    d .base = some (LaserFiles.fbin A.input.n A.input.dim (A.input.rows.map (E.pcaRow p)).flatten)
  noPca : ¬ A.md < A.input.dim → d .pca = none ∧ d .base = some A.raw

structure Q3 (E : Env) (A : Args) (sd : Option Bytes) (d : Dir) : Prop extends Q2 E A sd d where
  med : A.disable = false → ∃ b i v, d .base = some b ∧ E.medoid b A.ep A.seed = some (i, v) ∧ d .medIdx = some i ∧ d .med = some v

structure Q4 (E : Env) (A : Args) (sd : Option Bytes) (d : Dir) : Prop extends Q3 E A sd d where
  vam : ∃ r v, d .vam = some v ∧ E.vamana A.raw A.R A.L A.alpha A.seed r = some v

structure Q5 (E : Env) (A : Args) (sd : Option Bytes) (d : Dir) : Prop extends Q4 E A sd d where
  index : ∃ r r' b v ix rot ids nodes, d .base = some b ∧ d .vam = some v ∧ E.vamana A.raw A.R A.L A.alpha A.seed r = some v ∧
    E.laser A.input.n A.md A.input.dim A.R A.seed b v r' = some (some (ix, rot, ids, nodes)) ∧ d (.index A.R A.md) = some ix ∧
    d (.rot A.R A.md) = some rot ∧ d (.cids A.R A.md) = some ids ∧ d (.cnodes A.R A.md) = some nodes

structure Q6 (E : Env) (A : Args) (sd : Option Bytes) (d : Dir) : Prop extends Q5 E A sd d where
  tmp : d .seedTmp = some (E.intText A.seed)

/-- A crash in a step that leaves the side file, and the medoids if there are to be none, alone. -/
theorem bare_garble {A : Args} {sd : Option Bytes} {d : Dir} (h : Bare A sd d) {l : List (Name × Option Bytes)} (h1 : ∀ x ∈ l, x.1 ≠ .seed)
    (h2 : A.disable = true → ∀ x ∈ l, x.1 ≠ .medIdx ∧ x.1 ≠ .med) (h3 : ∀ x ∈ l, x.1 = .base → ∃ c, x.2 = some c ∧ c.length ≤ 8 + A.input.n * A.input.dim * 4)
    (g : Dir) : Bare A sd (d.garble l g) := by
  have key : ∀ (l : List (Name × Option Bytes)) (d' : Dir), Bare A sd d' → (∀ x ∈ l, x.1 ≠ .seed) → (A.disable = true → ∀ x ∈ l, x.1 ≠ .medIdx ∧ x.1 ≠ .med) →
      (∀ x ∈ l, x.1 = .base → ∀ b, x.2 = some b → b.length ≤ 8 + A.input.n * A.input.dim * 4) → Bare A sd (d'.apply l) := by
    intro l
    induction l with
    | nil => intro d' h _ _ _; exact h
    | cons x l ih =>
      intro d' h h1 h2 h3
      rw [apply_cons]
      refine ih _ ⟨?_, ?_, ?_⟩ (fun y hy => h1 y (by simp [hy])) (fun hd y hy => h2 hd y (by simp [hy])) (fun y hy => h3 y (by simp [hy]))
      · rw [set_apply, if_neg (Ne.symm (h1 x (by simp)))]; exact h.hSeed
      · intro b hb
        rw [set_apply] at hb
        split at hb
        · rename_i e; exact h3 x (by simp) e.symm b hb
        · exact h.hBase b hb
      · intro hd
        have := h2 hd x (by simp)
        rw [set_apply, set_apply, if_neg (Ne.symm this.1), if_neg (Ne.symm this.2)]
        exact h.hMed hd
  unfold Dir.garble
  refine key _ d h ?_ ?_ ?_
  · intro x hx
    obtain ⟨y, hy, rfl⟩ := List.mem_map.1 hx
    exact h1 y hy
  · intro hd x hx
    obtain ⟨y, hy, rfl⟩ := List.mem_map.1 hx
    exact h2 hd y hy
  · intro x hx e b hb
    obtain ⟨y, hy, rfl⟩ := List.mem_map.1 hx
    obtain ⟨c, hc, hl⟩ := h3 y hy e
    simp only at hb
    unfold garbled at hb
    rw [hc] at hb
    simp only [Option.map_eq_some_iff] at hb
    obtain ⟨z, _, rfl⟩ := hb
    rw [List.length_take]
    omega

theorem raw_rebuild (A : Args) (sd : Option Bytes) : StageOk (rawStage A false) (Bare A sd) (Q1 A sd) (Bare A sd) := by
  intro d h
  unfold rawStage
  cases hf : A.input.isFile with
  | true =>
    simp only [Bool.true_or, if_true]
    exact ⟨⟨h, fun e => by rw [hf] at e; cases e⟩, fun g => h⟩
  | false =>
    simp only [Bool.false_and, Bool.or_false, Bool.false_eq_true, if_false]
    refine ⟨⟨⟨?_, ?_, ?_⟩, fun _ => ?_⟩, fun g => bare_garble h (by simp) (by simp) (by simp) g⟩
    · simpa using h.hSeed
    · simpa using h.hBase
    · simpa using h.hMed
    · simp

theorem raw_seen {A : Args} {sd : Option Bytes} {d : Dir} (h : Q1 A sd d) : (if A.input.isFile then some A.raw else d .raw) = some A.raw := by
  cases hf : A.input.isFile with
  | true => rfl
  | false => exact h.raw hf

theorem pca_rebuild {E : Env} {A : Args} {sd : Option Bytes} (hI : InputOk A) (hS : StepsOk E A) (hc : A.input.n < chunk ∨ ¬ A.md < A.input.dim) :
    StageOk (pcaStage E A false) (Q1 A sd) (Q2 E A sd) (Bare A sd) := by
  intro d h
  unfold pcaStage
  rw [raw_seen h]
  simp only [Bool.false_and, Bool.false_eq_true, if_false]
  by_cases hm : A.md < A.input.dim
  · rw [if_pos hm]
    cases hp : E.pcaFit A.raw A.seed with
    | none => exact h.bare
    | some p =>
      simp only
      rw [raw_rows hI, pcaSave_fresh (hc.resolve_right (fun e => e hm)) hI.hd.1 h.bare.hBase]
      have hlen : (LaserFiles.fbin A.input.n A.input.dim (A.input.rows.map (E.pcaRow p)).flatten).length = 8 + A.input.n * A.input.dim * 4 := by
        have := valid_fbin hI.hn.2 hI.hd.2 (rows := A.input.rows.map (E.pcaRow p)) (by rw [List.length_map]; exact hI.hrows.1) (by
          intro r hr
          obtain ⟨x, hx, rfl⟩ := List.mem_map.1 hr
          exact hS.hRow _ _ (hI.hrows.2 x hx))
        unfold validBase at this
        simp only [Bool.and_eq_true, beq_iff_eq] at this
        exact this.1.1
      refine ⟨⟨⟨⟨?_, ?_, ?_⟩, ?_⟩, fun _ => ⟨p, hp, ?_, ?_⟩, fun e => absurd hm e⟩, fun g => bare_garble h.bare (by simp) (by simp) ?_ g⟩
      · simpa using h.bare.hSeed
      · intro b hb
        simp at hb
        rw [← hb, hlen]; exact Nat.le_refl _
      · simpa using h.bare.hMed
      · simpa using h.raw
      · simp
      · simp
      · intro x hx e
        simp only [List.mem_cons, List.not_mem_nil, or_false] at hx
        rcases hx with rfl | rfl
        · cases e
        · exact ⟨_, rfl, by rw [hlen]; exact Nat.le_refl _⟩
  · rw [if_neg hm]
    have hlen := raw_length hI
    by_cases hx : (d .pca).isSome = true
    · rw [if_pos hx]
      refine ⟨⟨⟨⟨?_, ?_, ?_⟩, ?_⟩, fun e => absurd e hm, fun _ => ⟨?_, ?_⟩⟩, fun g => bare_garble h.bare (by simp) (by simp) ?_ g⟩
      · simpa using h.bare.hSeed
      · intro b hb
        simp at hb
        rw [← hb, hlen]; exact Nat.le_refl _
      · simpa using h.bare.hMed
      · simpa using h.raw
      · simp
      · simp
      · intro x hx e
        simp only [List.mem_cons, List.not_mem_nil, or_false] at hx
        rcases hx with rfl | rfl
        · exact ⟨_, rfl, by rw [hlen]; exact Nat.le_refl _⟩
        · cases e
    · rw [if_neg hx]
      refine ⟨⟨⟨⟨?_, ?_, ?_⟩, ?_⟩, fun e => absurd e hm, fun _ => ⟨?_, ?_⟩⟩, fun g => bare_garble h.bare (by simp) (by simp) ?_ g⟩
      · simpa using h.bare.hSeed
      · intro b hb
        simp at hb
        rw [← hb, hlen]; exact Nat.le_refl _
      · simpa using h.bare.hMed
      · simpa using h.raw
      · simpa using hx
      · simp
      · intro x hx e
        simp only [List.mem_cons, List.not_mem_nil, or_false] at hx
        subst hx
        exact ⟨_, rfl, by rw [hlen]; exact Nat.le_refl _⟩

/-- The base is valid in either case. -/
theorem base_valid {E : Env} {A : Args} {sd : Option Bytes} (hI : InputOk A) (hS : StepsOk E A) {d : Dir} (h : Q2 E A sd d) :
    ∃ b, d .base = some b ∧ validBase (some b) A.input.n A.input.dim = true := by
  by_cases hm : A.md < A.input.dim
  · obtain ⟨p, _, _, h3⟩ := h.pca hm
    refine ⟨_, h3, valid_fbin hI.hn.2 hI.hd.2 (by rw [List.length_map]; exact hI.hrows.1) ?_⟩
    intro r hr
    obtain ⟨x, hx, rfl⟩ := List.mem_map.1 hr
    exact hS.hRow _ _ (hI.hrows.2 x hx)
  · exact ⟨_, (h.noPca hm).2, raw_valid hI⟩

theorem med_rebuild {E : Env} {A : Args} {sd : Option Bytes} : StageOk (medStage E A false) (Q2 E A sd) (Q3 E A sd) (Bare A sd) := by
  intro d h
  unfold medStage
  simp only [Bool.false_and, Bool.or_false]
  cases hd : A.disable with
  | true =>
    simp only [if_true]
    exact ⟨⟨h, fun e => by rw [hd] at e; cases e⟩, fun g => h.bare⟩
  | false =>
    simp only [Bool.false_eq_true, if_false]
    cases hb : d .base with
    | none => exact h.bare
    | some b =>
      simp only
      cases hm : E.medoid b A.ep A.seed with
      | none => exact h.bare
      | some x =>
        obtain ⟨i, v⟩ := x
        simp only
        refine ⟨⟨⟨⟨⟨?_, ?_, fun e => by rw [hd] at e; cases e⟩, ?_⟩, ?_, ?_⟩, fun _ => ⟨b, i, v, ?_, hm, ?_, ?_⟩⟩, fun g => bare_garble h.bare (by simp)
          (fun e => by rw [hd] at e; cases e) (by simp) g⟩
        · simpa using h.bare.hSeed
        · simpa using h.bare.hBase
        · simpa using h.raw
        · simpa using h.pca
        · simpa using h.noPca
        · simpa using hb
        · simp
        · simp

theorem vam_rebuild {E : Env} {A : Args} {sd : Option Bytes} (run : Nat) : StageOk (vamStage E A false run) (Q3 E A sd) (Q4 E A sd) (Bare A sd) := by
  intro d h
  unfold vamStage
  rw [raw_seen h.toQ1]
  simp only [Bool.false_and, Bool.false_eq_true, if_false]
  cases hv : E.vamana A.raw A.R A.L A.alpha A.seed run with
  | none => exact h.bare
  | some v =>
    simp only
    refine ⟨⟨⟨⟨⟨⟨?_, ?_, ?_⟩, ?_⟩, ?_, ?_⟩, ?_⟩, run, v, ?_, hv⟩, fun g => bare_garble h.bare (by simp) (by simp) (by simp) g⟩
    · simpa using h.bare.hSeed
    · simpa using h.bare.hBase
    · simpa using h.bare.hMed
    · simpa using h.raw
    · simpa using h.pca
    · simpa using h.noPca
    · simpa using h.med
    · simp

theorem laser_rebuild {E : Env} {A : Args} {sd : Option Bytes} (hI : InputOk A) (hS : StepsOk E A) (run : Nat) : StageOk (laserStage E A false run) (Q4 E A sd) (Q5 E A sd) (Bare A sd) := by
  intro d h
  unfold laserStage
  obtain ⟨b, hb, hbv⟩ := base_valid hI hS h.toQ2
  obtain ⟨r, v, hv, hvm⟩ := h.vam
  by_cases hR : A.R < 32 ∨ A.R % 32 ≠ 0
  · rw [if_pos hR]; exact h.bare
  · rw [if_neg hR]
    simp only [Bool.false_and, Bool.false_eq_true, if_false]
    rw [hb, hv]
    simp only
    cases hl : E.laser A.input.n A.md A.input.dim A.R A.seed b v run with
    | none => exact absurd hl (hS.hDef _ _ _ _ _ hbv hvm)
    | some o =>
      cases o with
      | none => exact h.bare
      | some x =>
        obtain ⟨ix, rot, ids, nodes⟩ := x
        simp only
        refine ⟨⟨⟨⟨⟨⟨⟨?_, ?_, ?_⟩, ?_⟩, ?_, ?_⟩, ?_⟩, r, v, ?_, hvm⟩, r, run, b, v, ix, rot, ids, nodes, ?_, ?_, hvm, hl, ?_, ?_, ?_, ?_⟩,
          fun g => bare_garble h.bare (by simp) (by simp) (by simp) g⟩
        · simpa using h.bare.hSeed
        · simpa using h.bare.hBase
        · simpa using h.bare.hMed
        · simpa using h.raw
        · simpa using h.pca
        · simpa using h.noPca
        · simpa using h.med
        · simpa using hv
        · simpa using hb
        · simpa using hv
        · simp
        · simp
        · simp
        · simp

theorem seed_rebuild {E : Env} {A : Args} {sd : Option Bytes} : StageOk (seedStage E A) (Q5 E A sd) (Q6 E A sd) (Bare A sd) := by
  intro d h
  unfold seedStage
  refine ⟨⟨⟨⟨⟨⟨⟨⟨?_, ?_, ?_⟩, ?_⟩, ?_, ?_⟩, ?_⟩, ?_⟩, ?_⟩, ?_⟩, fun g => bare_garble h.bare (by simp) (by simp) (by simp) g⟩
  · simpa using h.bare.hSeed
  · simpa using h.bare.hBase
  · simpa using h.bare.hMed
  · simpa using h.raw
  · simpa using h.pca
  · simpa using h.noPca
  · simpa using h.med
  · simpa using h.vam
  · simpa using h.index
  · simp

theorem exec_rebuild {E : Env} {A : Args} {sd : Option Bytes} (hI : InputOk A) (hS : StepsOk E A) (hc : A.input.n < chunk ∨ ¬ A.md < A.input.dim) (run : Nat) (c : Crash) (d : Dir)
    (h : Bare A sd d) : Res (exec (stages E A false run) c d) (Q6 E A sd) (Bare A sd) := by
  unfold stages
  exact exec_cons (raw_rebuild A sd) (exec_cons (pca_rebuild hI hS hc) (exec_cons med_rebuild (exec_cons (vam_rebuild run) (exec_cons (laser_rebuild hI hS run)
    (exec_cons seed_rebuild (fun c d h => exec_nil c d h)))))) c d h

/-! ### Nothing to do -/

/-- The same files, but for the temporary side file. -/
def Agree (d d' : Dir) : Prop := ∀ x, x ≠ .seedTmp → d' x = d x

theorem agree_set (d : Dir) (c : Option Bytes) : Agree d (d.set .seedTmp c) := fun x hx => by rw [set_apply, if_neg hx]

theorem good_agree {E : Env} {A : Args} {d d' : Dir} (h : Good E A d) (ha : ∀ x, x ≠ .seedTmp → x ≠ .seed → d' x = d x) : Good E A d' := by
  obtain ⟨h1, h2, h3, h4, h5, h6⟩ := h
  have e : d' .raw = d .raw ∧ d' .pca = d .pca ∧ d' .base = d .base ∧ d' .medIdx = d .medIdx ∧ d' .med = d .med ∧ d' .vam = d .vam :=
    ⟨ha _ (by simp) (by simp), ha _ (by simp) (by simp), ha _ (by simp) (by simp), ha _ (by simp) (by simp), ha _ (by simp) (by simp), ha _ (by simp) (by simp)⟩
  have e2 : ∀ R md, d' (.index R md) = d (.index R md) ∧ d' (.rot R md) = d (.rot R md) ∧ d' (.cids R md) = d (.cids R md) ∧ d' (.cnodes R md) = d (.cnodes R md) :=
    fun R md => ⟨ha _ (by simp) (by simp), ha _ (by simp) (by simp), ha _ (by simp) (by simp), ha _ (by simp) (by simp)⟩
  obtain ⟨e1, e3, e4, e5, e6, e7⟩ := e
  obtain ⟨f1, f2, f3, f4⟩ := e2 A.R A.md
  refine ⟨?_, ?_, ?_, ?_, ?_, ?_⟩
  · rw [e1]; exact h1
  · rw [e3, e4]; exact h2
  · rw [e3, e4]; exact h3
  · rw [e4, e5, e6]; exact h4
  · rw [e5, e6]; exact h5
  · rw [e4, e7, f1, f2, f3, f4]; exact h6

theorem nothing {s : Dir → Stage} {d0 : Dir} (h : s d0 = .write [] ∨ s d0 = .raise) : StageOk s (· = d0) (· = d0) (Agree d0) := by
  intro d hd
  subst hd
  rcases h with h | h
  · rw [h]; exact ⟨rfl, fun g x _ => rfl⟩
  · rw [h]; exact fun x _ => rfl

theorem nonEmpty_some {b : Bytes} (h : b ≠ []) : nonEmpty (some b) = true := by
  unfold nonEmpty
  simp only [decide_eq_true_eq]
  exact List.length_pos_iff.2 h

/-- Files that the validators accept. -/
structure Looks (A : Args) (d : Dir) : Prop where
  hRaw : A.input.isFile = false → validBase (d .raw) A.input.n A.input.dim = true
  hBase : validBase (d .base) A.input.n A.input.dim = true
  hPca : A.md < A.input.dim → validPca (d .pca) A.input.dim = true
  hNoPca : ¬ A.md < A.input.dim → d .pca = none
  hMed : A.disable = false → validMedoids d = true
  hVam : validVamana (d .vam) A.R = true
  hIndex : validIndex (d (.index A.R A.md)) A.input.n = true

theorem good_base {E : Env} {A : Args} (hI : InputOk A) (hS : StepsOk E A) {d : Dir} (h : Good E A d) :
    validBase (d .base) A.input.n A.input.dim = true := by
  by_cases hm : A.md < A.input.dim
  · obtain ⟨p, _, _, h3⟩ := h.hPca hm
    rw [h3]
    refine valid_fbin hI.hn.2 hI.hd.2 (by rw [List.length_map]; exact hI.hrows.1) ?_
    intro r hr
    obtain ⟨x, hx, rfl⟩ := List.mem_map.1 hr
    exact hS.hRow _ _ (hI.hrows.2 x hx)
  · rw [(h.hNoPca hm).2]; exact raw_valid hI

theorem good_looks {E : Env} {A : Args} (hI : InputOk A) (hS : StepsOk E A) {d : Dir} (h : Good E A d) : Looks A d := by
  have hbase := good_base hI hS h
  obtain ⟨r, r', b, v, ix, rot, ids, nodes, g1, g2, g3, g4, g5, _⟩ := h.hIndex
  refine ⟨fun e => by rw [h.hRaw e]; exact raw_valid hI, hbase, fun hm => ?_, fun hm => (h.hNoPca hm).1, fun hd => ?_, ?_, ?_⟩
  · obtain ⟨p, h1, h2, _⟩ := h.hPca hm
    rw [h2]; exact hS.hPca _ _ h1
  · obtain ⟨b, i, v, h1, h2, h3, h4⟩ := h.hMed hd
    have := hS.hMed _ _ _ _ h2
    unfold validMedoids
    rw [h3, h4, nonEmpty_some this.1, nonEmpty_some this.2]
    rfl
  · rw [g2]; exact hS.hVam _ _ _ g3
  · rw [g1] at hbase
    obtain ⟨x1, x2, _⟩ := hS.hIndex _ _ _ _ _ _ hbase g3 g4
    rw [g5]
    unfold validIndex
    simp only [Bool.and_eq_true, decide_eq_true_eq, beq_iff_eq]
    exact ⟨by simp only at x1; omega, x2⟩

theorem raw_noop {A : Args} {d : Dir} (h : A.input.isFile = false → validBase (d .raw) A.input.n A.input.dim = true) : rawStage A true d = .write [] := by
  unfold rawStage
  cases hf : A.input.isFile with
  | true => simp
  | false => simp [h hf]

theorem med_noop (E : Env) {A : Args} {d : Dir} (h : A.disable = false → validMedoids d = true) : medStage E A true d = .write [] := by
  unfold medStage
  cases hd : A.disable with
  | true => simp
  | false => simp [h hd]

theorem vam_noop (E : Env) {A : Args} {d : Dir} (run : Nat) (h : validVamana (d .vam) A.R = true) : vamStage E A true run d = .write [] := by
  unfold vamStage
  simp [h]

theorem exec_noop (E : Env) {A : Args} (run : Nat) (c : Crash) (d : Dir) (h : Looks A d) :
    Res (exec (stages E A true run) c d) (fun d' => Agree d d' ∧ d' .seedTmp = some (E.intText A.seed)) (Agree d) := by
  have s2 : pcaStage E A true d = .write [] := by
    unfold pcaStage
    by_cases hm : A.md < A.input.dim
    · simp [hm, h.hBase, h.hPca hm]
    · simp [hm, h.hBase, h.hNoPca hm]
  have s5 : laserStage E A true run d = .write [] ∨ laserStage E A true run d = .raise := by
    unfold laserStage
    by_cases hR : A.R < 32 ∨ A.R % 32 ≠ 0
    · rw [if_pos hR]; exact Or.inr rfl
    · rw [if_neg hR]; simp [h.hIndex]
  have s6 : StageOk (seedStage E A) (· = d) (fun d' => Agree d d' ∧ d' .seedTmp = some (E.intText A.seed)) (Agree d) := by
    intro d' hd'
    subst hd'
    unfold seedStage
    exact ⟨⟨agree_set _ _, by simp⟩, fun g => agree_set _ _⟩
  unfold stages
  exact exec_cons (nothing (Or.inl (raw_noop h.hRaw))) (exec_cons (nothing (Or.inl s2)) (exec_cons (nothing (Or.inl (med_noop E h.hMed)))
    (exec_cons (nothing (Or.inl (vam_noop E run h.hVam))) (exec_cons (nothing s5) (exec_cons s6 (fun c d h => exec_nil c d h)))))) c d rfl

/-- Without a crash and with a degree that the constructor takes, the files stay and the call returns. -/
theorem exec_noop_done (E : Env) {A : Args} (hR : 32 ≤ A.R ∧ A.R % 32 = 0) (run : Nat) (d : Dir) (h : Looks A d) :
    exec (stages E A true run) none d = .done (d.set .seedTmp (some (E.intText A.seed))) := by
  have s2 : pcaStage E A true d = .write [] := by
    unfold pcaStage
    by_cases hm : A.md < A.input.dim
    · simp [hm, h.hBase, h.hPca hm]
    · simp [hm, h.hBase, h.hNoPca hm]
  have s5 : laserStage E A true run d = .write [] := by
    unfold laserStage
    rw [if_neg (by omega)]; simp [h.hIndex]
  unfold stages
  simp only [exec, raw_noop h.hRaw, s2, med_noop E h.hMed, vam_noop E run h.hVam, s5, apply_nil, seedStage, apply_cons]

/-- A finished rebuild is what the call asked for. -/
theorem good_of_rebuild {E : Env} {A : Args} {sd : Option Bytes} {d : Dir} (h : Q6 E A sd d) : Good E A d :=
  ⟨h.raw, h.pca, h.noPca, h.med, h.bare.hMed, h.index⟩

end Alaya.LaserFit
