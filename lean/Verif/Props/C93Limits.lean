import Verif.Props.C93

/-! C93 — what the checks of `fit` do not notice. -/
namespace Alaya.LaserFit
open Alaya Alaya.Spec

/-- **C93.** With the seed of the last finished call and files of the right shape nothing is rebuilt, whatever the vectors and
the other parameters of this call are. -/
theorem C93_shape (E : Env) {A B : Args} (hI : InputOk A) (hS : StepsOk E A) {d : Dir} (hg : Good E A d) (hn : B.input.n = A.input.n)
    (hd : B.input.dim = A.input.dim) (hf : A.input.isFile = true → B.input.isFile = true) (hm : B.mainDim = A.mainDim) (hR : B.R = A.R)
    (hdis : A.disable = true → B.disable = true) (hok : B.ok = true) (hRo : 32 ≤ B.R ∧ B.R % 32 = 0) (hk : B.skip = true) (hs : seedOk E d B.seed = true) (run : Nat) :
    ∃ d', fit E B run none d = .done d' ∧ ∀ x, x ≠ .seed → x ≠ .seedTmp → d' x = d x := by
  have hmd : B.md = A.md := by unfold Args.md; rw [hm, hd]
  have hl := good_looks hI hS hg
  have hl2 : Looks B d := by
    refine ⟨fun e => ?_, ?_, ?_, ?_, fun e => ?_, ?_, ?_⟩
    · rw [hn, hd]
      refine hl.hRaw ?_
      cases h : A.input.isFile with
      | false => rfl
      | true => rw [hf h] at e; cases e
    · rw [hn, hd]; exact hl.hBase
    · rw [hmd, hd]; exact hl.hPca
    · rw [hmd, hd]; exact hl.hNoPca
    · refine hl.hMed ?_
      cases h : A.disable with
      | false => rfl
      | true => rw [hdis h] at e; cases e
    · rw [hR]; exact hl.hVam
    · rw [hR, hmd, hn]; exact hl.hIndex
  refine ⟨_, fit_noop_done E hok hRo run hk hs hl2, ?_⟩
  intro x h1 h2
  rw [set_apply, if_neg h2, set_apply, if_neg h1, set_apply, if_neg h2]

/-- Other vectors of the same shape with the same seed: the old index is returned. -/
theorem C93_data_refuted : ¬ Claim (fun A B => ∃ rows, B = { A with input := { A.input with rows := rows } }) := by
  intro h
  let B : Args := { args0 with input := { args0.input with rows := rows0 9 } }
  have hI := input_ok args0 1 rfl
  have hJ := input_ok B 9 rfl
  obtain ⟨d1, h1, h2, h3⟩ := first (A := args0) (x := 1) rfl (by decide) (by decide) (by decide)
  obtain ⟨d2, k1, k2⟩ := C93_shape env (B := B) hI (env_ok hI (by decide) (by decide)) h2 rfl rfl (fun e => e) rfl rfl (fun e => e) (by decide) (by decide) rfl h3 1
  have hG := h env args0 B d1 d2 0 1 hI hJ (env_ok hI (by decide) (by decide)) (env_ok hJ (by decide) (by decide)) rfl rfl ⟨rows0 9, rfl⟩ h1 k1
  have e1 := hG.hRaw rfl
  rw [k2 _ (by simp) (by simp), h2.hRaw rfl] at e1
  have e2 := Option.some.inj e1
  revert e2
  decide +kernel

/-- Another search list size for the graph with the same seed: the old graph is returned. -/
theorem C93_params_refuted : ¬ Claim (fun A B => ∃ L, B = { A with L := L }) := by
  intro h
  let B : Args := { args0 with L := 101 }
  have hI := input_ok args0 1 rfl
  have hJ := input_ok B 1 rfl
  obtain ⟨d1, h1, h2, h3⟩ := first (A := args0) (x := 1) rfl (by decide) (by decide) (by decide)
  obtain ⟨d2, k1, k2⟩ := C93_shape env (B := B) hI (env_ok hI (by decide) (by decide)) h2 rfl rfl (fun e => e) rfl rfl (fun e => e) (by decide) (by decide) rfl h3 1
  have hG := h env args0 B d1 d2 0 1 hI hJ (env_ok hI (by decide) (by decide)) (env_ok hJ (by decide) (by decide)) rfl rfl ⟨101, rfl⟩ h1 k1
  obtain ⟨r, _, _, v, _, _, _, _, _, g2, g3, _⟩ := hG.hIndex
  obtain ⟨r', _, _, v', _, _, _, _, _, g2', g3', _⟩ := h2.hIndex
  rw [k2 _ (by simp) (by simp), g2'] at g2
  rw [Option.some.inj g2] at g3'
  have e : env.vamana B.raw B.R B.L B.alpha B.seed 0 = env.vamana args0.raw args0.R args0.L args0.alpha args0.seed 0 := g3.trans g3'.symm
  revert e
  decide +kernel

/-- Medoids switched off: the old ones stay, and they are what searches start from. -/
theorem C93_medoid_refuted : ¬ Claim (fun A B => B = { A with disable := true }) := by
  intro h
  let B : Args := { args0 with disable := true }
  have hI := input_ok args0 1 rfl
  have hJ := input_ok B 1 rfl
  obtain ⟨d1, h1, h2, h3⟩ := first (A := args0) (x := 1) rfl (by decide) (by decide) (by decide)
  obtain ⟨d2, k1, k2⟩ := C93_shape env (B := B) hI (env_ok hI (by decide) (by decide)) h2 rfl rfl (fun e => e) rfl rfl (fun e => rfl) (by decide) (by decide) rfl h3 1
  have hG := h env args0 B d1 d2 0 1 hI hJ (env_ok hI (by decide) (by decide)) (env_ok hJ (by decide) (by decide)) rfl rfl rfl h1 k1
  have e1 := (hG.hNoMed rfl).1
  obtain ⟨_, i, _, _, _, m, _⟩ := h2.hMed rfl
  rw [k2 _ (by simp) (by simp), m] at e1
  cases e1

/-! ### Steps that are not touched -/

theorem stage_inv {P : Dir → Prop} {s : Dir → Stage} (h : ∀ d l, P d → s d = .write l → P (d.apply l)) (ss : List (Dir → Stage))
    (ht : ∀ d d', P d → exec ss none d = .done d' → P d') : ∀ d d', P d → exec (s :: ss) none d = .done d' → P d' := by
  intro d d' hp he
  unfold exec at he
  cases hw : s d with
  | raise => rw [hw] at he; cases he
  | undef => rw [hw] at he; cases he
  | write l => rw [hw] at he; exact ht _ _ (h d l hp hw) he

/-- The names that each step may write. -/
theorem stage_names {E : Env} {A : Args} {eff : Bool} {run : Nat} {d : Dir} {l : List (Name × Option Bytes)} :
    (rawStage A eff d = .write l → ∀ x ∈ l, x.1 = .raw) ∧ (pcaStage E A eff d = .write l → ∀ x ∈ l, x.1 = .pca ∨ x.1 = .base) ∧
    (medStage E A eff d = .write l → ∀ x ∈ l, A.disable = false ∧ (x.1 = .medIdx ∨ x.1 = .med)) ∧ (vamStage E A eff run d = .write l → ∀ x ∈ l, x.1 = .vam) ∧
    (laserStage E A eff run d = .write l → ∀ x ∈ l, x.1 = .index A.R A.md ∨ x.1 = .rot A.R A.md ∨ x.1 = .cids A.R A.md ∨ x.1 = .cnodes A.R A.md) ∧
    (seedStage E A d = .write l → ∀ x ∈ l, x.1 = .seedTmp) := by
  refine ⟨?_, ?_, ?_, ?_, ?_, ?_⟩
  · unfold rawStage
    split <;> intro h <;> obtain rfl := Stage.write.inj h <;> simp
  · unfold pcaStage
    simp only
    split
    · split
      · intro h; obtain rfl := Stage.write.inj h; simp
      · split
        · intro h; cases h
        · split
          · intro h; cases h
          · intro h; obtain rfl := Stage.write.inj h; simp
    · split
      · intro h; obtain rfl := Stage.write.inj h
        split <;> simp
      · split
        · intro h; cases h
        · intro h; obtain rfl := Stage.write.inj h
          split <;> simp
  · unfold medStage
    cases hd : A.disable with
    | true => simp only [Bool.true_or, if_true]; intro h; obtain rfl := Stage.write.inj h; simp
    | false =>
      split
      · intro h; obtain rfl := Stage.write.inj h; simp
      · split
        · intro h; cases h
        · split
          · intro h; cases h
          · intro h; obtain rfl := Stage.write.inj h; simp
  · unfold vamStage
    simp only
    split
    · intro h; obtain rfl := Stage.write.inj h; simp
    · split
      · intro h; cases h
      · split
        · intro h; cases h
        · intro h; obtain rfl := Stage.write.inj h; simp
  · unfold laserStage
    split
    · intro h; cases h
    · split
      · intro h; obtain rfl := Stage.write.inj h; simp
      · split
        · split
          · intro h; cases h
          · intro h; cases h
          · intro h; obtain rfl := Stage.write.inj h; simp
        · intro h; cases h
  · unfold seedStage
    intro h; obtain rfl := Stage.write.inj h; simp

theorem apply_other {l : List (Name × Option Bytes)} : ∀ {d : Dir} {y : Name}, (∀ x ∈ l, x.1 ≠ y) → d.apply l y = d y := by
  induction l with
  | nil => intro d y _; rfl
  | cons x l ih =>
    intro d y h
    rw [apply_cons, ih (fun z hz => h z (by simp [hz])), set_apply, if_neg (Ne.symm (h x (by simp)))]

/-- A file that no step of the call writes. -/
theorem fit_other {E : Env} {A : Args} {run : Nat} {d d' : Dir} (h : fit E A run none d = .done d') {y : Name} (h0 : y ≠ .raw ∧ y ≠ .pca ∧ y ≠ .base)
    (h1 : A.disable = false → y ≠ .medIdx ∧ y ≠ .med) (h2 : y ≠ .vam ∧ y ≠ .seed ∧ y ≠ .seedTmp)
    (h3 : y ≠ .index A.R A.md ∧ y ≠ .rot A.R A.md ∧ y ≠ .cids A.R A.md ∧ y ≠ .cnodes A.R A.md) : d' y = d y := by
  unfold fit at h
  split at h
  · cases h
  · simp only at h
    have key : ∀ (eff : Bool) (a b : Dir), a y = d y → exec (stages E A eff run) none a = .done b → b y = d y := by
      intro eff
      unfold stages
      refine stage_inv (P := fun a => a y = d y) ?_ _ (stage_inv (P := fun a => a y = d y) ?_ _ (stage_inv (P := fun a => a y = d y) ?_ _
        (stage_inv (P := fun a => a y = d y) ?_ _ (stage_inv (P := fun a => a y = d y) ?_ _ (stage_inv (P := fun a => a y = d y) ?_ _ ?_)))))
      · intro a l ha hl
        rw [apply_other (fun x hx e => h0.1 (e.symm.trans ((stage_names (E := E) (run := run)).1 hl x hx))), ha]
      · intro a l ha hl
        rw [apply_other (fun x hx e => ?_), ha]
        rcases (stage_names (run := run)).2.1 hl x hx with q | q
        · exact h0.2.1 (e ▸ q)
        · exact h0.2.2 (e ▸ q)
      · intro a l ha hl
        rw [apply_other (fun x hx e => ?_), ha]
        obtain ⟨q0, q | q⟩ := (stage_names (run := run)).2.2.1 hl x hx
        · exact (h1 q0).1 (e ▸ q)
        · exact (h1 q0).2 (e ▸ q)
      · intro a l ha hl
        rw [apply_other (fun x hx e => h2.1 (e.symm.trans (stage_names.2.2.2.1 hl x hx))), ha]
      · intro a l ha hl
        rw [apply_other (fun x hx e => ?_), ha]
        rcases stage_names.2.2.2.2.1 hl x hx with q | q | q | q
        · exact h3.1 (e ▸ q)
        · exact h3.2.1 (e ▸ q)
        · exact h3.2.2.1 (e ▸ q)
        · exact h3.2.2.2 (e ▸ q)
      · intro a l ha hl
        rw [apply_other (fun x hx e => h2.2.2 (e.symm.trans ((stage_names (eff := true) (run := run)).2.2.2.2.2 hl x hx))), ha]
      · intro a b ha hb
        unfold exec at hb
        obtain rfl := Out.done.inj hb
        exact ha
    split at h
    · rename_i d2 hx
      obtain rfl := Out.done.inj h
      rw [set_apply, if_neg h2.2.2, set_apply, if_neg h2.2.1]
      refine key _ _ _ ?_ hx
      split
      · rfl
      · rw [set_apply, if_neg h2.2.1]
    · rename_i o hne
      exact absurd h (hne _)

/-- **C93.** With medoids switched off the medoid files of earlier calls stay, with any seed and any vectors. -/
theorem C93_medoids_kept {E : Env} {A : Args} (hd : A.disable = true) {run : Nat} {d d' : Dir} (h : fit E A run none d = .done d') :
    d' .medIdx = d .medIdx ∧ d' .med = d .med :=
  ⟨fit_other h (by simp) (fun e => by rw [hd] at e; cases e) (by simp) (by simp), fit_other h (by simp) (fun e => by rw [hd] at e; cases e) (by simp) (by simp)⟩

/-- **C93.** Indexes with another degree or main dimension stay. -/
theorem C93_index_kept {E : Env} {A : Args} {run : Nat} {d d' : Dir} (h : fit E A run none d = .done d') {R md : Nat} (hne : ¬ (R = A.R ∧ md = A.md)) :
    d' (.index R md) = d (.index R md) :=
  fit_other h (by simp) (by simp) (by simp) (by simpa using fun a b => hne ⟨a, b⟩)

/-! ### Steps one by one -/

theorem exec_write {s : Dir → Stage} {ss : List (Dir → Stage)} {d : Dir} {l} (h : s d = .write l) : exec (s :: ss) none d = exec ss none (d.apply l) := by
  conv => lhs; unfold exec
  rw [h]

theorem fit_same (E : Env) {A : Args} (hA : A.ok = true) (hk : A.skip = true) (run : Nat) {d : Dir} (hs : seedOk E d A.seed = true) :
    fit E A run none d = match exec (stages E A true run) none d with
      | .done d2 => .done ((d2.set .seed (d2 .seedTmp)).set .seedTmp none)
      | o => o := by
  unfold fit
  rw [if_neg (by rw [hA]; simp)]
  simp only
  rw [hk, hs]
  simp only [Bool.and_true, if_true]
  cases exec (stages E A true run) none d <;> rfl

theorem seed_step (E : Env) (A : Args) (d : Dir) : exec [seedStage E A] none d = .done (d.set .seedTmp (some (E.intText A.seed))) := rfl

/-- The graph of `env` for three points. -/
theorem env_graph {A : Args} {x : UInt8} (h : A.input = ⟨3, 128, rows0 x, false⟩) {r : Nat} {v : Bytes} (hv : env.vamana A.raw A.R A.L A.alpha A.seed r = some v) :
    v = Vamana.graphFile (ring 3) A.R ((A.L + A.alpha + A.seed) % 3) 0 := by
  have r1 := (raw_head (input_ok A x h)).1
  rw [h] at r1
  unfold env at hv
  simp only [Option.some.injEq] at hv
  rw [r1] at hv
  exact hv.symm

/-- The builder step of `env` on a valid base and a graph of the environment always writes. -/
theorem env_builds {n : Nat} {B : Args} {eff : Bool} {run start : Nat} {d : Dir} (hI : InputOk B) (hn : B.input.n = n) (hR : B.R % 32 = 0 ∧ 0 < B.R ∧ B.R < 2 ^ 32)
    (hmd : B.md % 64 = 0)
    (hs : start < 2 ^ 32) (hb : validBase (d .base) B.input.n B.input.dim = true) (hv : d .vam = some (Vamana.graphFile (ring n) B.R start 0)) :
    ∃ l, laserStage env B eff run d = .write l := by
  unfold laserStage
  rw [if_neg (by omega)]
  split
  · exact ⟨_, rfl⟩
  · cases hx : d .base with
    | none => rw [hx] at hb; cases hb
    | some b =>
      rw [hx] at hb
      rw [hv, ← hn]
      simp only
      rw [env_laser hR hmd hI.hd.1 hI.hn hs (valid_head hI.hd.2 hb)]
      exact ⟨_, rfl⟩

/-- PCA switched off with the same seed: the rotated base stays, only the rotation is removed. -/
theorem C93_pca_refuted : ¬ Claim (fun A B => B = { A with mainDim := none }) := by
  intro h
  let A : Args := { args0 with mainDim := some 64 }
  have hI := input_ok A 1 rfl
  have hJ := input_ok args0 1 rfl
  have hS := env_ok hI (by decide) (by decide)
  obtain ⟨d1, h1, h2, h3⟩ := first (A := A) (x := 1) rfl (by decide) (by decide) (by decide)
  have hl := good_looks hI hS h2
  obtain ⟨p, q1, q2, q3⟩ := h2.hPca (by decide)
  obtain ⟨r, _, _, v, _, _, _, _, _, g2, g3, _⟩ := h2.hIndex
  rw [env_graph (x := 1) rfl g3] at g2
  have s1 : pcaStage env args0 true d1 = .write [(.pca, none)] := by
    unfold pcaStage
    have hb : validBase (d1 .base) args0.input.n args0.input.dim = true := hl.hBase
    rw [if_neg (by decide), q2, hb]
    rfl
  obtain ⟨l, s4⟩ := env_builds (n := 3) (B := args0) (eff := true) (run := 1) (d := d1.set .pca none) hJ rfl (by decide) (by decide)
    (start := (A.L + A.alpha + A.seed) % 3) (by decide) (by rw [set_apply, if_neg (by simp)]; exact hl.hBase) (by rw [set_apply, if_neg (by simp)]; exact g2)
  have hx : ∃ d2, fit env args0 1 none d1 = .done d2 ∧ d2 .base = d1 .base := by
    have hex : exec (stages env args0 true 1) none d1 = .done (((d1.set .pca none).apply l).set .seedTmp (some (env.intText args0.seed))) := by
      unfold stages
      rw [exec_write (raw_noop (A := args0) hl.hRaw), apply_nil, exec_write s1, exec_write (l := []), exec_write (l := []), apply_nil, apply_nil, apply_cons, apply_nil,
        exec_write s4, seed_step]
      · refine vam_noop env 1 ?_
        show validVamana ((d1.set .pca none) .vam) 32 = true
        rw [set_apply, if_neg (by simp)]
        exact hl.hVam
      · refine med_noop env (A := args0) (fun e => ?_)
        show validMedoids (d1.set .pca none) = true
        unfold validMedoids
        rw [set_apply, if_neg (by simp), set_apply, if_neg (by simp)]
        exact hl.hMed rfl
    refine ⟨_, by rw [fit_same env (A := args0) (by decide) rfl 1 h3, hex], ?_⟩
    rw [set_apply, if_neg (by simp), set_apply, if_neg (by simp), set_apply, if_neg (by simp), apply_other]
    · simp
    · intro x hx e
      rcases stage_names.2.2.2.2.1 s4 x hx with q | q | q | q <;> rw [e] at q <;> cases q
  obtain ⟨d2, k1, k2⟩ := hx
  have hG := h env A args0 d1 d2 0 1 hI hJ hS (env_ok hJ (by decide) (by decide)) rfl rfl rfl h1 k1
  have e1 := (hG.hNoPca (by decide)).2
  rw [k2, q3] at e1
  have e2 := Option.some.inj e1
  have hp : p = (env.pcaFit A.raw A.seed).getD [] := by rw [q1]; rfl
  rw [hp] at e2
  revert e2
  decide +kernel

/-- Fewer vectors with the same seed: the graph of the earlier call has ids past the end, and the builder indexes with them. -/
theorem C93_shrink_refuted : ¬ ∀ (E : Env) (A B : Args) (d1 : Dir) (run run' : Nat), InputOk A → InputOk B → StepsOk E A → StepsOk E B →
    A.skip = true → B.skip = true → (∃ rows n, B = { A with input := { A.input with rows := rows, n := n } }) →
    fit E A run none (fun _ => none) = .done d1 → fit E B run' none d1 ≠ .undef := by
  intro h
  let A : Args := { args0 with disable := true }
  let B : Args := { A with input := { A.input with rows := [List.replicate 512 1, List.replicate 512 2], n := 2 } }
  have hI := input_ok A 1 rfl
  have hJ : InputOk B := by
    refine ⟨by decide, by decide, rfl, fun r hr => ?_⟩
    have hr2 : r ∈ [List.replicate 512 (1 : UInt8), List.replicate 512 2] := hr
    simp only [List.mem_cons, List.not_mem_nil, or_false] at hr2
    rcases hr2 with rfl | rfl <;> exact List.length_replicate
  have hS := env_ok hI (by decide) (by decide)
  obtain ⟨d1, h1, h2, h3⟩ := first (A := A) (x := 1) rfl (by decide) (by decide) (by decide)
  refine h env A B d1 0 1 hI hJ hS (env_ok hJ (by decide) (by decide)) rfl rfl ⟨_, 2, rfl⟩ h1 ?_
  obtain ⟨q1, q2⟩ := h2.hNoPca (by decide)
  obtain ⟨r, r', b, v, ix, _, _, _, g1, g2, g3, g4, g5, _⟩ := h2.hIndex
  have hbv := good_base hI hS h2
  rw [g1] at hbv
  obtain ⟨_, x2, _⟩ := hS.hIndex _ _ _ _ _ _ hbv g3 g4
  rw [env_graph (x := 1) rfl g3] at g2
  have hraw := h2.hRaw rfl
  have nv : validBase (some A.raw) 2 128 = false := by decide +kernel
  have s0 : rawStage B true d1 = .write [(.raw, some B.raw)] := by
    unfold rawStage
    rw [hraw]
    have : validBase (some A.raw) B.input.n B.input.dim = false := nv
    rw [this]
    rfl
  have s1 : pcaStage env B true (d1.apply [(.raw, some B.raw)]) = .write [(.base, some B.raw)] := by
    unfold pcaStage
    rw [if_neg (by decide)]
    have e1 : (d1.apply [(.raw, some B.raw)]) .base = some A.raw := by simp [q2]
    have e2 : (d1.apply [(.raw, some B.raw)]) .pca = none := by simp [q1]
    have e3 : (d1.apply [(.raw, some B.raw)]) .raw = some B.raw := by simp
    have : validBase (some A.raw) B.input.n B.input.dim = false := nv
    rw [e1, e2, e3, this]
    rfl
  have s3 : laserStage env B true 1 ((d1.apply [(.raw, some B.raw)]).apply [(.base, some B.raw)]) = .undef := by
    unfold laserStage
    rw [if_neg (by decide)]
    have e1 : ((d1.apply [(.raw, some B.raw)]).apply [(.base, some B.raw)]) .base = some B.raw := by simp
    have e2 : ((d1.apply [(.raw, some B.raw)]).apply [(.base, some B.raw)]) .vam = some (Vamana.graphFile (ring 3) A.R ((A.L + A.alpha + A.seed) % 3) 0) := by simp [g2]
    have e3 : ((d1.apply [(.raw, some B.raw)]).apply [(.base, some B.raw)]) (.index B.R B.md) = some ix := by
      have : d1 (.index B.R B.md) = some ix := g5
      simp [this]
    have e4 : validIndex (some ix) B.input.n = false := by
      unfold validIndex
      have x3 : leNat (ix.take 8) = 3 := x2
      simp only
      rw [x3]
      simp only [Bool.and_eq_false_iff]
      exact Or.inr (by decide)
    rw [e1, e2, e3, e4]
    simp only [Bool.and_false, Bool.false_eq_true, if_false]
    have e5 : LaserBuild.initFromVamana 2 (Vamana.graphFile (ring 3) A.R ((A.L + A.alpha + A.seed) % 3) 0) = none := by decide +kernel
    have e6 : env.laser B.input.n B.md B.input.dim B.R B.seed B.raw (Vamana.graphFile (ring 3) A.R ((A.L + A.alpha + A.seed) % 3) 0) 1 = none := by
      unfold env LaserBuild.build
      simp only
      have : LaserBuild.initFromVamana B.input.n (Vamana.graphFile (ring 3) A.R ((A.L + A.alpha + A.seed) % 3) 0) = none := e5
      rw [this]
      rfl
    rw [e6]
  rw [fit_same env (A := B) (by decide) rfl 1 h3]
  unfold stages
  rw [exec_write s0, exec_write s1, exec_write (l := []), exec_write (l := [])]
  · unfold exec
    rw [apply_nil, apply_nil, s3]
  · refine vam_noop env 1 ?_
    have e2 : ((d1.apply [(.raw, some B.raw)]).apply [(.base, some B.raw)]) .vam = some (Vamana.graphFile (ring 3) A.R ((A.L + A.alpha + A.seed) % 3) 0) := by simp [g2]
    rw [apply_nil, e2]
    exact graph_valid (by decide) (by decide)
  · exact med_noop env (A := B) (fun e => by cases e)

/-- Another degree: two indexes lie in the prefix and `from_prefix` gives up. -/
theorem C93_degree_refuted : ¬ ∀ (E : Env) (A B : Args) (d1 d2 : Dir) (run run' : Nat) (found : List (Nat × Nat)), InputOk A → InputOk B → StepsOk E A → StepsOk E B →
    A.skip = true → B.skip = true → (∃ R seed, B = { A with R := R, seed := seed }) → fit E A run none (fun _ => none) = .done d1 → fit E B run' none d1 = .done d2 →
    (∀ R md, (R, md) ∈ found ↔ (d2 (.index R md)).isSome = true) → (fromPrefix found d2).isSome = true := by
  intro h
  let B : Args := { args0 with R := 64, seed := 8 }
  have hI := input_ok args0 1 rfl
  have hJ := input_ok B 1 rfl
  have hS := env_ok hI (by decide) (by decide)
  have hT := env_ok hJ (by decide) (by decide)
  obtain ⟨d1, h1, h2, h3⟩ := first (A := args0) (x := 1) rfl (by decide) (by decide) (by decide)
  have hne : seedOk env d1 8 = false := by
    cases hq : seedOk env d1 8 with
    | false => rfl
    | true =>
      obtain ⟨f, a1, _, a3⟩ := seedOk_iff.1 hq
      obtain ⟨f', b1, _, b3⟩ := seedOk_iff.1 h3
      rw [a1] at b1
      rw [← Option.some.inj b1, a3] at b3
      cases b3
  obtain ⟨d2, k1⟩ := fit_returns hJ (by decide) (by decide) (by decide) (Or.inl (by decide)) 1 (d := d1) (by rw [show B.seed = 8 from rfl, hne]; simp)
    (base_len (good_base hI hS h2)) (fun e => by cases e)
  have hG := (C93_fresh hJ hT (Or.inl (by decide)) 1 (Or.inr hne) (base_len (good_base hI hS h2)) (fun e => by cases e) k1).1
  obtain ⟨_, _, _, _, ix, _, _, _, _, _, _, _, g5, _⟩ := h2.hIndex
  obtain ⟨_, _, _, _, ix', _, _, _, _, _, _, _, g5', _⟩ := hG.hIndex
  have := h env args0 B d1 d2 0 1 [(32, 128), (64, 128)] hI hJ hS hT rfl rfl ⟨64, 8, rfl⟩ h1 k1 (by
    intro R md
    by_cases e1 : R = 64 ∧ md = 128
    · rw [e1.1, e1.2]
      have : d2 (.index 64 128) = some ix' := g5'
      rw [this]
      simp
    · rw [C93_index_kept k1 (R := R) (md := md) e1]
      by_cases e2 : R = 32 ∧ md = 128
      · rw [e2.1, e2.2]
        have : d1 (.index 32 128) = some ix := g5
        rw [this]
        simp
      · rw [C93_index_kept h1 (R := R) (md := md) e2]
        simp only [List.mem_cons, Prod.mk.injEq, List.not_mem_nil, or_false, Option.isSome_none, Bool.false_eq_true, iff_false]
        rintro (q | q)
        · exact e2 q
        · exact e1 q)
  cases this

/-! ### Interruptions -/

theorem exec_later {s : Dir → Stage} {ss : List (Dir → Stage)} {d g : Dir} {k : Nat} {l} (h : s d = .write l) :
    exec (s :: ss) (some (k + 1, g)) d = exec ss (some (k, g)) (d.apply l) := by
  conv => lhs; unfold exec
  rw [h]

theorem exec_crash {s : Dir → Stage} {ss : List (Dir → Stage)} {d g : Dir} {l} (h : s d = .write l) :
    exec (s :: ss) (some (0, g)) d = .crashed (d.garble l g) := by
  conv => lhs; unfold exec
  rw [h]

theorem image_long (n perPage pageSize : Nat) (metas : List Nat) (img : Nat → Bytes) : 4096 ≤ (indexImage n perPage pageSize metas img).length := by
  unfold indexImage pad
  simp only [List.length_append, List.length_replicate]
  omega

/-- `skip_existing=False` leaves the side file in place; when it is cut short while the index is written, the next call takes a
beginning of an index for an index. -/
theorem C93_interrupt_refuted : ¬ ∀ (E : Env) (A : Args) (d1 d2 d3 : Dir) (c : Crash) (run run' run'' : Nat), InputOk A → StepsOk E A →
    fit E (A.call A.seed true) run none (fun _ => none) = .done d1 → fit E (A.call A.seed false) run' c d1 = .crashed d2 →
    fit E (A.call A.seed true) run'' none d2 = .done d3 → Good E (A.call A.seed true) d3 := by
  intro h
  let A : Args := { args0 with disable := true }
  let F : Args := A.call A.seed false
  have hI := input_ok A 1 rfl
  have hS := env_ok hI (by decide) (by decide)
  obtain ⟨d1, h1, h2, h3⟩ := first (A := A) (x := 1) rfl (by decide) (by decide) (by decide)
  obtain ⟨q1, q2⟩ := h2.hNoPca (by decide)
  obtain ⟨qm1, qm2⟩ := h2.hNoMed rfl
  have hraw := h2.hRaw rfl
  obtain ⟨r, r', b, v, ix, _, _, _, g1, g2, g3, g4, g5, _⟩ := h2.hIndex
  have hbv := good_base hI hS h2
  rw [g1] at hbv
  have hv := env_graph (x := 1) rfl g3
  obtain ⟨x1, x2, _⟩ := hS.hIndex _ _ _ _ _ _ hbv g3 g4
  simp only at x1 x2
  rw [hv] at g4
  rw [q2] at g1
  obtain rfl := Option.some.inj g1
  have el : ∀ run, env.laser 3 128 128 32 7 A.raw (Vamana.graphFile (ring 3) 32 ((100 + 1 + 7) % 3) 0) run = some (some (ix, _)) := fun _ => g4
  -- the second call, cut short in the last step
  let g : Dir := d1.set (.index 32 128) (some (ix.take 24))
  have t0 : rawStage F false d1 = .write [(.raw, some A.raw)] := rfl
  have ha : (d1.apply [(.raw, some A.raw)]).apply [(.base, some A.raw)] = d1 := by
    funext x
    by_cases e1 : x = .base
    · rw [e1, q2]; simp
    · by_cases e2 : x = .raw
      · rw [e2, hraw]; simp
      · simp [e1, e2]
  have t1 : pcaStage env F false (d1.apply [(.raw, some A.raw)]) = .write [(.base, some A.raw)] := by
    unfold pcaStage
    rw [if_neg (by decide)]
    have e2 : (d1.apply [(.raw, some A.raw)]) .pca = none := by simp [q1]
    have e3 : (d1.apply [(.raw, some A.raw)]) .raw = some A.raw := by simp
    rw [e2, e3]
    rfl
  have t3 : vamStage env F false 1 d1 = .write [(.vam, some v)] := by
    unfold vamStage
    rw [hraw]
    have : env.vamana A.raw F.R F.L F.alpha F.seed 1 = some v := g3
    simp only [Bool.false_and, Bool.false_eq_true, if_false]
    show (match (match env.vamana A.raw F.R F.L F.alpha F.seed 1 with | none => Stage.raise | some f => Stage.write [(.vam, some f)]) with | x => x) = _
    rw [this]
  have hb : d1.apply [(.vam, some v)] = d1 := by
    funext x
    by_cases e1 : x = .vam
    · rw [e1, g2]; simp
    · simp [e1]
  have t4 : ∃ ro ci cn, laserStage env F false 1 d1 = .write [(.index 32 128, some ix), (.rot 32 128, some ro), (.cids 32 128, some ci), (.cnodes 32 128, some cn)] := by
    unfold laserStage
    rw [if_neg (by decide), q2, g2, hv]
    simp only [Bool.false_and, Bool.false_eq_true, if_false]
    have : env.laser F.input.n F.md F.input.dim F.R F.seed A.raw (Vamana.graphFile (ring 3) A.R ((A.L + A.alpha + A.seed) % 3) 0) 1 = _ := g4
    rw [this]
    exact ⟨_, _, _, rfl⟩
  obtain ⟨ro, ci, cn, t4⟩ := t4
  let l : List (Name × Option Bytes) := [(.index 32 128, some ix), (.rot 32 128, some ro), (.cids 32 128, some ci), (.cnodes 32 128, some cn)]
  have k1 : fit env F 1 (some (4, g)) d1 = .crashed (d1.garble l g) := by
    have : exec (stages env F false 1) (some (4, g)) d1 = .crashed (d1.garble l g) := by
      unfold stages
      have t2 : medStage env F false d1 = .write [] := rfl
      rw [exec_later t0, exec_later t1, ha, exec_later t2, apply_nil, exec_later t3, hb, exec_crash t4]
    have hs : seedOk env d1 F.seed = true := h3
    unfold fit
    rw [if_neg (by decide)]
    simp only
    rw [hs, show F.skip = false from rfl]
    simp only [Bool.false_and, if_true]
    rw [this]
  -- what is left
  let d2 : Dir := d1.garble l g
  have o : ∀ x, x ≠ .index 32 128 → x ≠ .rot 32 128 → x ≠ .cids 32 128 → x ≠ .cnodes 32 128 → d2 x = d1 x := by
    intro x e1 e2 e3 e4
    show d1.garble l g x = _
    unfold Dir.garble
    rw [apply_other]
    intro y hy
    obtain ⟨z, hz, rfl⟩ := List.mem_map.1 hy
    simp only [l, List.mem_cons, List.not_mem_nil, or_false] at hz
    rcases hz with rfl | rfl | rfl | rfl
    · exact Ne.symm e1
    · exact Ne.symm e2
    · exact Ne.symm e3
    · exact Ne.symm e4
  have oi : d2 (.index 32 128) = some (ix.take 24) := by
    show d1.garble l g (.index 32 128) = _
    unfold Dir.garble garbled
    simp only [l, List.map_cons, List.map_nil, apply_cons, apply_nil, set_apply]
    simp only [reduceCtorEq, if_false, if_true, g, set_apply, Option.map_some, List.take_take, Nat.min_eq_right x1]
  have hl := good_looks hI hS h2
  have hl2 : Looks A d2 := by
    refine ⟨fun e => (by rw [o .raw (by simp) (by simp) (by simp) (by simp)]; exact hl.hRaw e), by rw [o .base (by simp) (by simp) (by simp) (by simp)]; exact hl.hBase,
      fun e => absurd e (by decide), fun _ => (o .pca (by simp) (by simp) (by simp) (by simp)).trans q1, fun e => Bool.noConfusion e,
      by rw [o .vam (by simp) (by simp) (by simp) (by simp)]; exact hl.hVam, ?_⟩
    have : d2 (.index A.R A.md) = some (ix.take 24) := oi
    rw [this]
    unfold validIndex
    simp only [List.take_take, List.length_take, Bool.and_eq_true, decide_eq_true_eq, beq_iff_eq]
    exact ⟨by omega, x2⟩
  have hs2 : seedOk env d2 A.seed = true := by
    unfold seedOk at h3 ⊢
    rw [o .seed (by simp) (by simp) (by simp) (by simp)]
    exact h3
  have k2 := fit_noop_done env (A := A) (by decide) (by decide) 2 rfl hs2 hl2
  have hG := h env A d1 d2 _ (some (4, g)) 0 1 2 hI hS h1 k1 k2
  obtain ⟨r, r', b, v, ix2, _, _, _, y1, y2, y3, y4, y5, _⟩ := hG.hIndex
  have hbv2 := good_base hI hS (A := A) (good_skip (k' := true) hG)
  rw [y1] at hbv2
  rw [env_graph (x := 1) (A := A) rfl y3] at y4
  have := env_laser (n := 3) (md := 128) (dim := 128) (R := 32) (s := 7) (start := (A.L + A.alpha + A.seed) % 3) (r := r') (by decide) (by decide) (by decide) (by decide) (by decide)
    (valid_head (b := b) (n := 3) (dim := 128) (by decide) hbv2)
  have e := this.symm.trans y4
  simp only [Option.some.injEq, Prod.mk.injEq] at e
  have e3 : d2 (.index 32 128) = some ix2 := y5
  rw [oi] at e3
  have hlen := image_long 3 (LaserBuild.Geo.perPage ⟨3, 32, 128, 128⟩) (LaserBuild.Geo.pageSize ⟨3, 32, 128, 128⟩) (LaserBuild.metas ⟨3, 32, 128, 128⟩ ((A.L + A.alpha + A.seed) % 3))
    (LaserBuild.imageOf ⟨3, 32, 128, 128⟩ (LaserBuild.quant0 128) (LaserBuild.vec 128 b) (ring 3))
  rw [e.1, ← Option.some.inj e3, List.length_take] at hlen
  omega

/-! ### Many vectors -/

/-- **C93.** The transform continues a base that is there, whatever made it: whole blocks of its rows stay. -/
theorem C93_resume {c n dim : Nat} (hc : 0 < c) (hd : 0 < dim) {old : Bytes} (ho : old.length = 8 + n * dim * 4) (hn : c ≤ n) (rows : List Bytes) :
    (pcaSave c n dim (some old) rows).take (8 + n / c * c * (dim * 4)) = old.take (8 + n / c * c * (dim * 4)) := by
  unfold pcaSave
  simp only
  have e : (old.length - 8) / (dim * 4) / c = n / c := by
    rw [ho, Nat.add_sub_cancel_left, Nat.mul_assoc, Nat.mul_div_cancel _ (by omega)]
  have hpos : 0 < n / c := Nat.div_pos hn hc
  have hgt : 8 < old.length := by
    rw [ho, Nat.mul_assoc]
    have : 0 < n * (dim * 4) := Nat.mul_pos (by omega) (by omega)
    omega
  rw [if_pos hgt, e, if_neg (by omega), Option.getD_some]
  have hle : n / c * c * (dim * 4) ≤ n * (dim * 4) := Nat.mul_le_mul_right _ (Nat.div_mul_le_self n c)
  have hlen : (old.take (8 + n / c * c * (dim * 4))).length = 8 + n / c * c * (dim * 4) := by
    rw [List.length_take, ho, Nat.mul_assoc n]
    omega
  rw [List.take_left' hlen]

/-- A hundred thousand equal vectors. -/
def many (x : UInt8) : List Bytes := List.replicate 100000 (List.replicate 512 x)
def argsMany : Args := ⟨⟨100000, 128, many 0, false⟩, some 64, 32, 100, 1, 200, 4, true, 0, true⟩

theorem many_ok (x : UInt8) : (many x).length = 100000 ∧ ∀ r ∈ many x, r.length = 4 * 128 := by
  refine ⟨List.length_replicate, fun r hr => ?_⟩
  rw [List.eq_of_mem_replicate hr]
  exact List.length_replicate

theorem many_flat (x : UInt8) : (many x).flatten = List.replicate (100000 * 512) x := List.flatten_replicate_replicate

/-- A new seed and a hundred thousand vectors: the old transform stays under the new rotation. -/
theorem C93_resume_refuted : ¬ ∀ (E : Env) (A : Args) (run : Nat) (d d' : Dir), InputOk A → StepsOk E A → seedOk E d A.seed = false →
    (∀ b, d .base = some b → b.length ≤ 8 + A.input.n * A.input.dim * 4) → (A.disable = true → d .medIdx = none ∧ d .med = none) →
    fit E A run none d = .done d' → Good E A d' := by
  intro h
  let old : Bytes := LaserFiles.fbin 100000 128 (many 7).flatten
  let d : Dir := fun x => if x = .base then some old else none
  have hI : InputOk argsMany := by
    refine ⟨?_, ?_, many_ok 0⟩
    · show 0 < 100000 ∧ 100000 < 2 ^ 31
      decide
    · show 0 < 128 ∧ 128 < 2 ^ 31
      decide
  have hR : argsMany.R % 32 = 0 ∧ 0 < argsMany.R ∧ argsMany.R < 2 ^ 32 := by
    show 32 % 32 = 0 ∧ 0 < 32 ∧ 32 < 2 ^ 32
    decide
  have hmd : argsMany.md % 64 = 0 ∧ argsMany.md < 2 ^ 64 := by
    show 64 % 64 = 0 ∧ 64 < 2 ^ 64
    decide
  have hS := env_ok hI hR hmd
  have hov : validBase (some old) 100000 128 = true := valid_fbin (by decide) (by decide) (many_ok 7).1 (many_ok 7).2
  have holen : old.length = 8 + 100000 * 128 * 4 := by
    unfold validBase at hov
    simp only [Bool.and_eq_true, beq_iff_eq] at hov
    exact hov.1.1
  obtain ⟨p, hp⟩ : ∃ p, env.pcaFit argsMany.raw 0 = some p := ⟨_, rfl⟩
  have hsave : ∀ rows : List Bytes, rows.length = 100000 → pcaSave chunk 100000 128 (some old) rows = old := by
    intro rows hr
    unfold pcaSave chunk
    simp only
    rw [holen, if_neg (by decide), Option.getD_some, List.take_of_length_le (by rw [holen]; decide), List.drop_eq_nil_of_le (by rw [hr]; decide)]
    simp
  have s0 : rawStage argsMany false d = .write [(.raw, some argsMany.raw)] := rfl
  have s1 : pcaStage env argsMany false (d.set .raw (some argsMany.raw)) = .write [(.pca, some p), (.base, some old)] := by
    unfold pcaStage
    have e1 : (d.set .raw (some argsMany.raw)) .raw = some argsMany.raw := by simp
    have e2 : (d.set .raw (some argsMany.raw)) .base = some old := by simp [d]
    rw [if_pos (by show 64 < 128; decide)]
    simp only [Bool.false_and, Bool.false_eq_true, if_false]
    rw [show argsMany.input.isFile = false from rfl]
    simp only [Bool.false_eq_true, if_false]
    rw [e1, e2]
    simp only
    rw [show argsMany.seed = 0 from rfl, hp]
    simp only
    have := hsave ((List.map (fun i => (argsMany.raw.drop (8 + 4 * 128 * i)).take (4 * 128)) (List.range 100000)).map (env.pcaRow p)) (by simp)
    rw [show argsMany.input.n = 100000 from rfl, show argsMany.input.dim = 128 from rfl, this]
  let d2 : Dir := ((d.set .raw (some argsMany.raw)).set .pca (some p)).set .base (some old)
  have r1 : leNat (argsMany.raw.take 4) = 100000 := (raw_head hI).1
  have s3 : vamStage env argsMany false 0 d2 = .write [(.vam, some (Vamana.graphFile (ring 100000) 32 ((100 + 1 + 0) % 100000) 0))] := by
    unfold vamStage
    have e1 : d2 .raw = some argsMany.raw := by simp [d2]
    simp only [Bool.false_and, Bool.false_eq_true, if_false]
    rw [show argsMany.input.isFile = false from rfl]
    simp only [Bool.false_eq_true, if_false]
    rw [e1]
    have : env.vamana argsMany.raw argsMany.R argsMany.L argsMany.alpha argsMany.seed 0 = some (Vamana.graphFile (ring 100000) 32 ((100 + 1 + 0) % 100000) 0) := by
      unfold env
      simp only
      rw [r1]
      rfl
    simp only [this]
  obtain ⟨l, s4⟩ := env_builds (n := 100000) (B := argsMany) (eff := false) (run := 0)
    (d := d2.set .vam (some (Vamana.graphFile (ring 100000) 32 ((100 + 1 + 0) % 100000) 0))) hI rfl hR hmd.1 (start := (100 + 1 + 0) % 100000) (by decide)
    (by rw [set_apply, if_neg (by simp)]; simp only [d2, set_apply, if_true]; exact hov) (by rw [set_apply, if_pos rfl]; rfl)
  have hex : exec (stages env argsMany false 0) none d =
      .done (((d2.set .vam (some (Vamana.graphFile (ring 100000) 32 ((100 + 1 + 0) % 100000) 0))).apply l).set .seedTmp (some (env.intText argsMany.seed))) := by
    unfold stages
    have s2 : medStage env argsMany false d2 = .write [] := rfl
    rw [exec_write s0, apply_cons, apply_nil, exec_write s1, apply_cons, apply_cons, apply_nil, exec_write s2, apply_nil, exec_write s3, apply_cons, apply_nil, exec_write s4,
      seed_step]
  have hseed : seedOk env d argsMany.seed = false := rfl
  have hd : d.set .seed none = d := by
    funext x
    rw [set_apply]
    split
    · rename_i e; rw [e]; rfl
    · rfl
  have hok : argsMany.ok = true := by
    unfold Args.ok
    rw [show argsMany.input.dim = 128 from rfl, show argsMany.md = 64 from rfl]
    decide
  have hf : ∃ d', fit env argsMany 0 none d = .done d' ∧ d' .base = some old := by
    refine ⟨_, by
      unfold fit
      rw [if_neg (by rw [hok]; simp)]
      simp only
      rw [hseed]
      simp only [Bool.and_false, Bool.false_eq_true, if_false]
      rw [hd, hex], ?_⟩
    rw [set_apply, if_neg (by simp), set_apply, if_neg (by simp), set_apply, if_neg (by simp), apply_other]
    · simp [d2]
    · intro x hx e
      rcases stage_names.2.2.2.2.1 s4 x hx with q | q | q | q <;> rw [e] at q <;> cases q
  obtain ⟨d', k1, k2⟩ := hf
  have hG := h env argsMany 0 d d' hI hS hseed (by
    intro b hb
    have : old = b := by simpa [d] using hb
    rw [← this, holen]
    exact Nat.le_refl _) (fun _ => ⟨rfl, rfl⟩) k1
  obtain ⟨p', z1, _, z3⟩ := hG.hPca (by show 64 < 128; decide)
  obtain rfl : p = p' := Option.some.inj (hp.symm.trans z1)
  rw [k2] at z3
  have e1 : old = LaserFiles.fbin 100000 128 ((many 0).map (env.pcaRow p)).flatten := Option.some.inj z3
  have hp8 : p.getD 8 0 = 0 := by
    unfold env at hp
    simp only [Option.some.injEq] at hp
    rw [← hp, List.getD_eq_getElem?_getD, List.getElem?_append_right (by rw [leBytes_length]; decide), leBytes_length, List.getElem?_replicate]
    split <;> rfl
  have e2 : ((many 0).map (env.pcaRow p)) = many 0 := by
    have e5 : env.pcaRow p (List.replicate 512 0) = List.replicate 512 0 := by
      show (List.replicate 512 (0 : UInt8)).map (· + p.getD 8 0) = _
      rw [List.map_replicate, hp8]
      rfl
    show (List.replicate 100000 (List.replicate 512 (0 : UInt8))).map (env.pcaRow p) = List.replicate 100000 (List.replicate 512 0)
    rw [List.map_replicate, e5]
  rw [e2] at e1
  have e3 : (many 7).flatten = (many 0).flatten := by
    have e4 : LaserFiles.fbin 100000 128 (many 7).flatten = LaserFiles.fbin 100000 128 (many 0).flatten := e1
    unfold LaserFiles.fbin at e4
    exact List.append_cancel_left e4
  rw [many_flat, many_flat] at e3
  have := congrArg (fun l => l.getD 0 0) e3
  simp only [List.getD_eq_getElem?_getD, List.getElem?_replicate] at this
  rw [if_pos (by decide), if_pos (by decide)] at this
  revert this
  decide

end Alaya.LaserFit
