import Verif.Props.C93

/-! C93 — files that are missing, a transform that was cut short, arguments that are refused. -/
namespace Alaya.LaserFit
open Alaya Alaya.Spec

theorem pow2_eq {n : Nat} : pow2 n = true ↔ ∃ k, n = 2 ^ k := by
  unfold pow2
  simp only [Bool.and_eq_true, bne_iff_ne, ne_eq, beq_iff_eq]
  exact Nat.ne_zero_and_sub_one_eq_zero_iff_isPowerOfTwo

/-- **C93.** Exactly the vectors of dimension 128 and more with a main dimension that is a power of two from 64 up to the dimension
get past the checks; a refused call touches no file. -/
theorem C93_refused (E : Env) (A : Args) (run : Nat) (c : Crash) (d : Dir)
    (h : A.input.dim < 128 ∨ (∀ k, A.md ≠ 2 ^ k) ∨ A.md < 64 ∨ A.input.dim < A.md) : fit E A run c d = .raised d := by
  have : A.ok = false := by
    cases hA : A.ok with
    | false => rfl
    | true =>
      unfold Args.ok at hA
      simp only [Bool.and_eq_true, decide_eq_true_eq] at hA
      obtain ⟨⟨⟨h1, h2⟩, h3⟩, h4⟩ := hA
      obtain ⟨k, hk⟩ := pow2_eq.mp h2
      rcases h with h | h | h | h
      · omega
      · exact absurd hk (h k)
      · omega
      · omega
  unfold fit
  rw [if_pos this]

theorem C93_accepted {A : Args} (h1 : 128 ≤ A.input.dim) (h2 : ∃ k, A.md = 2 ^ k) (h3 : 64 ≤ A.md) (h4 : A.md ≤ A.input.dim) : A.ok = true := by
  unfold Args.ok
  rw [pow2_eq.mpr h2]
  simp [h1, h3, h4]

theorem flatten_from {w : Nat} : ∀ {vs : List Bytes}, (∀ v ∈ vs, v.length = w) → ∀ k : Nat, vs.flatten.drop (k * w) = (vs.drop k).flatten
  | [], _, k => by simp
  | v :: vs, h, 0 => by simp
  | v :: vs, h, k + 1 => by
    have hv := h v List.mem_cons_self
    rw [Nat.succ_mul, Nat.add_comm (k * w) w, ← List.drop_drop, List.flatten_cons, List.drop_left' hv]
    exact flatten_from (fun x hx => h x (List.mem_cons_of_mem _ hx)) k

/-- **C93.** A transform of any size that was cut short anywhere is continued to the same file – as long as it is the same transform. -/
theorem C93_continue {c n dim : Nat} (hd : 0 < dim) (rows : List Bytes) (hr : ∀ r ∈ rows, r.length = 4 * dim) (k : Nat) :
    pcaSave c n dim (some ((LaserFiles.fbin n dim rows.flatten).take k)) rows = LaserFiles.fbin n dim rows.flatten := by
  unfold pcaSave
  simp only [Option.getD_some]
  generalize hF : LaserFiles.fbin n dim rows.flatten = F
  generalize hst : (if 8 < (F.take k).length then ((F.take k).length - 8) / (dim * 4) / c else 0) = st
  by_cases h0 : st = 0
  · rw [if_pos h0]
  · rw [if_neg h0]
    have hlen : 8 + st * c * (dim * 4) ≤ (F.take k).length := by
      by_cases h8 : 8 < (F.take k).length
      · rw [if_pos h8] at hst
        have h1 : st * c ≤ ((F.take k).length - 8) / (dim * 4) := by rw [← hst]; exact Nat.div_mul_le_self _ _
        have h2 : st * c * (dim * 4) ≤ (F.take k).length - 8 :=
          Nat.le_trans (Nat.mul_le_mul_right _ h1) (Nat.div_mul_le_self _ _)
        omega
      · rw [if_neg h8] at hst; exact absurd hst.symm h0
    have hk : 8 + st * c * (dim * 4) ≤ k := Nat.le_trans hlen (by rw [List.length_take]; omega)
    rw [List.take_take, Nat.min_eq_left hk]
    have hdrop : F.drop (8 + st * c * (dim * 4)) = (rows.drop (st * c)).flatten := by
      rw [← hF]
      unfold LaserFiles.fbin
      rw [← List.drop_drop, List.drop_left' (by simp only [List.length_append, leBytes_length]), Nat.mul_comm dim 4]
      exact flatten_from hr _
    rw [← hdrop, List.take_append_drop]

/-- Two directories that differ in missing files only: raw vectors (if the library wrote them), PCA, base, medoids. -/
structure Lacks (A : Args) (d0 d : Dir) : Prop where
  some : ∀ x, d x = d0 x ∨ d x = none
  same : ∀ x, x ≠ .pca → x ≠ .base → x ≠ .med → x ≠ .medIdx → (x ≠ .raw ∨ A.input.isFile = true) → d x = d0 x

theorem raw_mend {A : Args} {E : Env} {d0 d : Dir} (hI : InputOk A) (hG : Good E A d0) (h : Lacks A d0 d) :
    ∃ l, rawStage A true d = .write l ∧ Lacks A d0 (d.apply l) ∧ (d.apply l) .raw = d0 .raw := by
  unfold rawStage
  cases hf : A.input.isFile with
  | true => exact ⟨[], by simp, h, h.same _ (by simp) (by simp) (by simp) (by simp) (.inr hf)⟩
  | false =>
    have hr := hG.hRaw hf
    rcases h.some .raw with e | e
    · refine ⟨[], ?_, h, e⟩
      rw [e, hr, raw_valid hI]; simp
    · refine ⟨[(.raw, Option.some A.raw)], by rw [e]; simp [validBase], ?_, by simp [hr]⟩
      refine ⟨fun x => ?_, fun x h1 h2 h3 h4 h5 => ?_⟩
      · simp only [apply_cons, apply_nil, set_apply]
        split
        · next e => subst e; exact .inl hr.symm
        · exact h.some x
      · simp only [apply_cons, apply_nil, set_apply]
        split
        · next e => subst e; exact hr.symm
        · exact h.same x h1 h2 h3 h4 h5

theorem pca_mend {A : Args} {E : Env} {d0 d : Dir} (hI : InputOk A) (hS : StepsOk E A) (hG : Good E A d0) (h : Lacks A d0 d) (hraw : d .raw = d0 .raw) :
    ∃ l, pcaStage E A true d = .write l ∧ Lacks A d0 (d.apply l) ∧ (d.apply l) .raw = d0 .raw ∧ (d.apply l) .pca = d0 .pca ∧
      (d.apply l) .base = d0 .base := by
  have hl := good_looks hI hS hG
  have hrawS : (if A.input.isFile then Option.some A.raw else d .raw) = Option.some A.raw := by
    cases hf : A.input.isFile with
    | true => simp
    | false => simp [hraw, hG.hRaw hf]
  have put : ∀ (l : List (Name × Option Bytes)), (∀ x, (d.apply l) x = d x ∨ ((x = .pca ∨ x = .base) ∧ (d.apply l) x = d0 x)) → Lacks A d0 (d.apply l) := by
    intro l hp
    refine ⟨fun x => ?_, fun x h1 h2 h3 h4 h5 => ?_⟩
    · rcases hp x with e | ⟨-, e⟩
      · rw [e]; exact h.some x
      · exact .inl e
    · rcases hp x with e | ⟨e, -⟩
      · rw [e]; exact h.same x h1 h2 h3 h4 h5
      · rcases e with e | e
        · exact absurd e h1
        · exact absurd e h2
  unfold pcaStage
  simp only [hrawS]
  by_cases hm : A.md < A.input.dim
  · simp only [if_pos hm]
    obtain ⟨p, hp1, hp2, hp3⟩ := hG.hPca hm
    by_cases hv : (true && validBase (d .base) A.input.n A.input.dim && validPca (d .pca) A.input.dim) = true
    · rw [if_pos hv]
      simp only [Bool.true_and, Bool.and_eq_true] at hv
      have e1 : d .base = d0 .base := by
        rcases h.some .base with e | e
        · exact e
        · rw [e] at hv; cases hv.1
      have e2 : d .pca = d0 .pca := by
        rcases h.some .pca with e | e
        · exact e
        · rw [e] at hv; cases hv.2
      exact ⟨[], rfl, h, hraw, e2, e1⟩
    · rw [if_neg hv]
      simp only [hp1]
      have hrows : ∀ r ∈ A.input.rows.map (E.pcaRow p), r.length = 4 * A.input.dim := by
        intro r hr
        obtain ⟨x, hx, rfl⟩ := List.mem_map.mp hr
        exact hS.hRow p x (hI.hrows.2 x hx)
      have hrr : (List.range A.input.n).map (fun i => ((A.raw.drop (8 + 4 * A.input.dim * i)).take (4 * A.input.dim))) = A.input.rows := raw_rows hI
      have hsave : pcaSave chunk A.input.n A.input.dim (d .base) (A.input.rows.map (E.pcaRow p)) =
          LaserFiles.fbin A.input.n A.input.dim (A.input.rows.map (E.pcaRow p)).flatten := by
        rcases h.some .base with e | e
        · rw [e, hp3]
          have := C93_continue (c := chunk) (n := A.input.n) hI.hd.1 _ hrows (LaserFiles.fbin A.input.n A.input.dim (A.input.rows.map (E.pcaRow p)).flatten).length
          rwa [List.take_length] at this
        · rw [e]; rfl
      refine ⟨_, rfl, put _ (fun x => ?_), ?_, ?_, ?_⟩
      · simp only [apply_cons, apply_nil, set_apply, hrr, hsave]
        by_cases x1 : x = .base
        · subst x1; exact .inr ⟨.inr rfl, by simp [hp3]⟩
        · by_cases x2 : x = .pca
          · subst x2; exact .inr ⟨.inl rfl, by simp [hp2]⟩
          · exact .inl (by simp [x1, x2])
      · simp [hraw]
      · simp [hp2]
      · simp only [apply_cons, apply_nil, set_apply, hrr, hsave]; simp [hp3]
  · simp only [if_neg hm]
    obtain ⟨hp1, hp2⟩ := hG.hNoPca hm
    have hpc : d .pca = none := by
      rcases h.some .pca with e | e
      · rw [e, hp1]
      · exact e
    by_cases hv : (true && validBase (d .base) A.input.n A.input.dim) = true
    · rw [if_pos hv]
      simp only [Bool.true_and] at hv
      have e1 : d .base = d0 .base := by
        rcases h.some .base with e | e
        · exact e
        · rw [e] at hv; cases hv
      refine ⟨_, rfl, ?_⟩
      simp only [hpc, Option.isSome_none, Bool.false_eq_true, if_false, apply_nil]
      exact ⟨h, hraw, hp1.symm, e1⟩
    · rw [if_neg hv]
      refine ⟨_, rfl, put _ (fun x => ?_), ?_, ?_, ?_⟩ <;> simp only [hpc, Option.isSome_none, Bool.false_eq_true, if_false, apply_cons, apply_nil, set_apply]
      · by_cases x1 : x = .base
        · subst x1; exact .inr ⟨.inr rfl, by simp [hp2]⟩
        · exact .inl (by simp [x1])
      · simp [hraw]
      · simp [hpc, hp1]
      · simp [hp2]

theorem med_mend {A : Args} {E : Env} {d0 d : Dir} (hI : InputOk A) (hS : StepsOk E A) (hG : Good E A d0) (h : Lacks A d0 d) (h1 : d .raw = d0 .raw)
    (h2 : d .pca = d0 .pca) (h3 : d .base = d0 .base) : ∃ l, medStage E A true d = .write l ∧ d.apply l = d0 := by
  have hother : ∀ x, x ≠ .med → x ≠ .medIdx → d x = d0 x := by
    intro x x1 x2
    by_cases y1 : x = .raw
    · subst y1; exact h1
    · by_cases y2 : x = .pca
      · subst y2; exact h2
      · by_cases y3 : x = .base
        · subst y3; exact h3
        · exact h.same x y2 y3 x1 x2 (.inl y1)
  unfold medStage
  cases hd : A.disable with
  | true =>
    obtain ⟨m1, m2⟩ := hG.hNoMed hd
    refine ⟨[], by simp, funext fun x => ?_⟩
    by_cases x1 : x = .med
    · subst x1; rcases h.some .med with e | e
      · exact e
      · show d .med = _; rw [e, m2]
    · by_cases x2 : x = .medIdx
      · subst x2; rcases h.some .medIdx with e | e
        · exact e
        · show d .medIdx = _; rw [e, m1]
      · exact hother x x1 x2
  | false =>
    obtain ⟨b, i, v, b1, b2, b3, b4⟩ := hG.hMed hd
    by_cases hv : validMedoids d = true
    · refine ⟨[], by simp [hv], funext fun x => ?_⟩
      unfold validMedoids at hv
      simp only [Bool.and_eq_true] at hv
      by_cases x1 : x = .med
      · subst x1; rcases h.some .med with e | e
        · exact e
        · rw [e] at hv; cases hv.1
      · by_cases x2 : x = .medIdx
        · subst x2; rcases h.some .medIdx with e | e
          · exact e
          · rw [e] at hv; cases hv.2
        · exact hother x x1 x2
    · refine ⟨[(.medIdx, some i), (.med, some v)], by simp [hv, h3, b1, b2], funext fun x => ?_⟩
      simp only [apply_cons, apply_nil, set_apply]
      by_cases x1 : x = .med
      · subst x1; simp [b4]
      · by_cases x2 : x = .medIdx
        · subst x2; simp [b3]
        · simp [x1, x2, hother x x1 x2]

/-- **C93.** After a finished fit somebody removes any of raw vectors, PCA, base and medoids: the same call puts exactly the same files
back, it does what it would have done had they been there. -/
theorem C93_mend {E : Env} {A : Args} (hI : InputOk A) (hS : StepsOk E A) (hA : A.ok = true) (run : Nat) {d0 d : Dir} (hk : A.skip = true) (hs : seedOk E d0 A.seed = true)
    (hG : Good E A d0) (h : Lacks A d0 d) : fit E A run none d = fit E A run none d0 := by
  have hl := good_looks hI hS hG
  have hseed : seedOk E d A.seed = true := by
    unfold seedOk at hs ⊢
    rwa [h.same .seed (by simp) (by simp) (by simp) (by simp) (.inl (by simp))]
  obtain ⟨l1, a1, a2, a3⟩ := raw_mend hI hG h
  obtain ⟨l2, b1, b2, b3, b4, b5⟩ := pca_mend hI hS hG a2 a3
  obtain ⟨l3, c1, c2⟩ := med_mend hI hS hG b2 b3 b4 b5
  have s2 : pcaStage E A true d0 = .write [] := by
    unfold pcaStage
    by_cases hm : A.md < A.input.dim
    · simp [hm, hl.hBase, hl.hPca hm]
    · simp [hm, hl.hBase, hl.hNoPca hm]
  have : exec (stages E A true run) none d = exec (stages E A true run) none d0 := by
    unfold stages
    simp only [exec, a1, b1, c1, c2, raw_noop hl.hRaw, s2, med_noop E hl.hMed, apply_nil]
  unfold fit
  rw [if_neg (by rw [hA]; simp), if_neg (by rw [hA]; simp), hseed, hs, hk]
  simp only [Bool.and_true, if_true, this]

/-- Three vectors with a main dimension of 64: the PCA file is removed, the same call puts it back. -/
example : ∃ d1 d2, fit env { args0 with mainDim := some 64 } 0 none (fun _ => none) = .done d1 ∧ Good env { args0 with mainDim := some 64 } d1 ∧
    fit env { args0 with mainDim := some 64 } 1 none (d1.set .pca none) = .done d2 ∧ (∃ p, d1 .pca = some p ∧ d2 .pca = some p) := by
  have hI := input_ok { args0 with mainDim := some 64 } 1 rfl
  have hS := env_ok hI (by decide) (by decide)
  obtain ⟨d1, h1, h2, h3⟩ := first (A := { args0 with mainDim := some 64 }) (x := 1) rfl (by decide) (by decide) (by decide)
  obtain ⟨d2, k1, k0, _, k2⟩ := C93_again hI hS (by decide) (by decide) 1 rfl h3 h2
  have hm := C93_mend hI hS (by decide) 1 (d := d1.set .pca none) rfl h3 h2 ⟨fun x => ?_, fun x x1 _ _ _ _ => by simp [x1]⟩
  · obtain ⟨p, -, hp, -⟩ := h2.hPca (by decide)
    exact ⟨d1, d2, h1, h2, by rw [hm]; exact k1, p, hp, by rw [k0 _ (by simp) (by simp)]; exact hp⟩
  · by_cases e : x = .pca
    · exact .inr (by simp [e])
    · exact .inl (by simp [e])

/-- Four vectors transformed in blocks of two, cut short in the third vector. -/
example : pcaSave 2 4 1 (some ((LaserFiles.fbin 4 1 [1,1,1,1, 2,2,2,2, 3,3,3,3, 4,4,4,4]).take 18)) [[1,1,1,1], [2,2,2,2], [3,3,3,3], [4,4,4,4]] =
    LaserFiles.fbin 4 1 [1,1,1,1, 2,2,2,2, 3,3,3,3, 4,4,4,4] :=
  C93_continue (by decide) [[1,1,1,1], [2,2,2,2], [3,3,3,3], [4,4,4,4]] (by decide) 18

end Alaya.LaserFit
