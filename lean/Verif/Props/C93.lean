import Verif.Lemmas.LaserFit

/-! C93 — `laser.Index.fit`: what it reuses, what a crash leaves, what is opened again. -/
namespace Alaya.LaserFit
open Alaya Alaya.Spec

/-- The claim about two calls in a row on the same prefix, `P` saying how the arguments may differ. -/
def Claim (P : Args → Args → Prop) : Prop := ∀ (E : Env) (A B : Args) (d1 d2 : Dir) (run run' : Nat), InputOk A → InputOk B → StepsOk E A → StepsOk E B →
  A.skip = true → B.skip = true → P A B → fit E A run none (fun _ => none) = .done d1 → fit E B run' none d1 = .done d2 → Good E B d2

theorem seedOk_iff {E : Env} {d : Dir} {s : Nat} : seedOk E d s = true ↔ ∃ f, d .seed = some f ∧ 0 < f.length ∧ E.intParse f = some s := by
  unfold seedOk
  cases d .seed with
  | none => simp
  | some f => simp

/-- A call that reuses nothing. -/
theorem fit_rebuild {E : Env} {A : Args} (hI : InputOk A) (hS : StepsOk E A) (hc : A.input.n < chunk ∨ ¬ A.md < A.input.dim) (run : Nat) (c : Crash) {d : Dir}
    (hs : (A.skip && seedOk E d A.seed) = false) (hb : ∀ b, d .base = some b → b.length ≤ 8 + A.input.n * A.input.dim * 4)
    (hm : A.disable = true → d .medIdx = none ∧ d .med = none) :
    Res (fit E A run c d) (fun d' => Good E A d' ∧ d' .seed = some (E.intText A.seed))
      (fun d' => (A.ok = false ∧ d' = d) ∨ Bare A (if seedOk E d A.seed then d .seed else none) d') := by
  unfold fit
  by_cases hA : A.ok = false
  · rw [if_pos hA]; exact Or.inl ⟨hA, rfl⟩
  · rw [if_neg hA]
    simp only
    rw [hs]
    have hB : Bare A (if seedOk E d A.seed then d .seed else none) (if seedOk E d A.seed = true then d else d.set .seed none) := by
      cases hq : seedOk E d A.seed with
      | true => simp only [if_true]; exact ⟨rfl, hb, hm⟩
      | false =>
        simp only [Bool.false_eq_true, if_false]
        exact ⟨by simp, by simpa using hb, by simpa using hm⟩
    have := exec_rebuild hI hS hc run c _ hB
    cases hx : exec (stages E A false run) c (if seedOk E d A.seed = true then d else d.set .seed none) with
    | done d2 =>
      rw [hx] at this
      have h6 : Q6 E A _ d2 := this
      refine ⟨good_agree (good_of_rebuild h6) (fun x h1 h2 => by rw [set_apply, if_neg h1, set_apply, if_neg h2]), ?_⟩
      rw [set_apply, if_neg (by simp), set_apply, if_pos rfl, h6.tmp]
    | raised d2 => rw [hx] at this; exact Or.inr this
    | crashed d2 => rw [hx] at this; exact Or.inr this
    | undef => rw [hx] at this; exact this.elim

/-- **C93.** A new seed or `skip_existing=False`: whatever lies around, a call that returns has rebuilt everything. -/
theorem C93_fresh {E : Env} {A : Args} (hI : InputOk A) (hS : StepsOk E A) (hc : A.input.n < chunk ∨ ¬ A.md < A.input.dim) (run : Nat) {d d' : Dir}
    (hs : A.skip = false ∨ seedOk E d A.seed = false) (hb : ∀ b, d .base = some b → b.length ≤ 8 + A.input.n * A.input.dim * 4)
    (hm : A.disable = true → d .medIdx = none ∧ d .med = none) (h : fit E A run none d = .done d') :
    Good E A d' ∧ d' .seed = some (E.intText A.seed) := by
  have := fit_rebuild hI hS hc run none (by rcases hs with hs | hs <;> simp [hs]) hb hm
  rw [h] at this
  exact this

/-- A call that finds files which its checks accept. -/
theorem fit_noop (E : Env) {A : Args} (run : Nat) (c : Crash) {d : Dir} (hk : A.skip = true) (hs : seedOk E d A.seed = true) (h : Looks A d) :
    Res (fit E A run c d) (fun d' => (∀ x, x ≠ .seed → x ≠ .seedTmp → d' x = d x) ∧ d' .seed = some (E.intText A.seed)) (Agree d) := by
  unfold fit
  by_cases hA : A.ok = false
  · rw [if_pos hA]; exact fun x _ => rfl
  · rw [if_neg hA]
    simp only
    rw [hk, hs]
    simp only [Bool.and_true, if_true]
    have := exec_noop E run c d h
    cases hx : exec (stages E A true run) c d with
    | done d2 =>
      rw [hx] at this
      obtain ⟨t1, t2⟩ := this
      refine ⟨fun x h1 h2 => ?_, ?_⟩
      · rw [set_apply, if_neg h2, set_apply, if_neg h1]; exact t1 x h2
      · rw [set_apply, if_neg (by simp), set_apply, if_pos rfl, t2]
    | raised d2 => rw [hx] at this; exact this
    | crashed d2 => rw [hx] at this; exact this
    | undef => rw [hx] at this; exact this.elim

theorem fit_noop_done (E : Env) {A : Args} (hA : A.ok = true) (hR : 32 ≤ A.R ∧ A.R % 32 = 0) (run : Nat) {d : Dir} (hk : A.skip = true)
    (hs : seedOk E d A.seed = true) (h : Looks A d) :
    fit E A run none d = .done (((d.set .seedTmp (some (E.intText A.seed))).set .seed (some (E.intText A.seed))).set .seedTmp none) := by
  unfold fit
  rw [if_neg (by rw [hA]; simp)]
  simp only
  rw [hk, hs]
  simp only [Bool.and_true, if_true]
  rw [exec_noop_done E hR run d h]
  simp

/-- **C93.** The same call again: it returns, and no file but the side file is written. -/
theorem C93_again {E : Env} {A : Args} (hI : InputOk A) (hS : StepsOk E A) (hA : A.ok = true) (hR : 32 ≤ A.R ∧ A.R % 32 = 0) (run : Nat) {d : Dir}
    (hk : A.skip = true) (hs : seedOk E d A.seed = true) (h : Good E A d) :
    ∃ d', fit E A run none d = .done d' ∧ (∀ x, x ≠ .seed → x ≠ .seedTmp → d' x = d x) ∧ d' .seed = some (E.intText A.seed) ∧ Good E A d' := by
  have hl := good_looks hI hS h
  have hx := fit_noop_done E hA hR run hk hs hl
  have := fit_noop E run none hk hs hl
  rw [hx] at this
  exact ⟨_, hx, this.1, this.2, good_agree h (fun x h1 h2 => this.1 x h2 h1)⟩

/-- The call with another seed, reusing files or not. -/
def Args.call (A : Args) (s : Nat) (skip : Bool) : Args := { A with seed := s, skip := skip }

theorem input_call {A : Args} (h : InputOk A) (s : Nat) (skip : Bool) : InputOk (A.call s skip) := ⟨h.hn, h.hd, h.hrows⟩
theorem steps_call {E : Env} {A : Args} (h : StepsOk E A) (s : Nat) (skip : Bool) : StepsOk E (A.call s skip) :=
  ⟨h.hText, h.hRow, h.hPca, h.hMed, h.hVam, h.hDef, h.hIndex⟩

/-- Directories that calls on the same vectors with the same parameters leave: any seeds; calls that may reuse files can be cut
short anywhere, calls with `skip_existing=False` return. -/
inductive Hist (E : Env) (A : Args) : Dir → Prop where
  | start (d : Dir) : d .seed = none → (∀ b, d .base = some b → b.length ≤ 8 + A.input.n * A.input.dim * 4) →
    (A.disable = true → d .medIdx = none ∧ d .med = none) → Hist E A d
  | back (d d' : Dir) (s run : Nat) (skip : Bool) : Hist E A d → fit E (A.call s skip) run none d = .done d' → Hist E A d'
  | cut (d d' : Dir) (s run : Nat) (c : Crash) : Hist E A d →
    (fit E (A.call s true) run c d = .raised d' ∨ fit E (A.call s true) run c d = .crashed d') → Hist E A d'

structure Inv (E : Env) (A : Args) (d : Dir) : Prop where
  hGood : ∀ s, seedOk E d s = true → Good E (A.call s true) d
  hBase : ∀ b, d .base = some b → b.length ≤ 8 + A.input.n * A.input.dim * 4
  hMed : A.disable = true → d .medIdx = none ∧ d .med = none

theorem good_skip {E : Env} {A : Args} {s : Nat} {k k' : Bool} {d : Dir} (h : Good E (A.call s k) d) : Good E (A.call s k') d :=
  ⟨h.hRaw, h.hPca, h.hNoPca, h.hMed, h.hNoMed, h.hIndex⟩

theorem base_len {b : Option Bytes} {n dim : Nat} (h : validBase b n dim = true) : ∀ x, b = some x → x.length ≤ 8 + n * dim * 4 := by
  rintro x rfl
  unfold validBase at h
  simp only [Bool.and_eq_true, beq_iff_eq] at h
  omega

theorem inv_done {E : Env} {A : Args} (hI : InputOk A) (hS : StepsOk E A) {d : Dir} {s : Nat} {k : Bool} (h : Good E (A.call s k) d)
    (hs : d .seed = some (E.intText s)) : Inv E A d := by
  refine ⟨fun t ht => ?_, base_len (good_base (input_call hI s k) (steps_call hS s k) h), h.hNoMed⟩
  obtain ⟨f, h1, _, h3⟩ := seedOk_iff.1 ht
  rw [hs] at h1
  rw [← Option.some.inj h1, (hS.hText s).2] at h3
  rw [← Option.some.inj h3]
  exact good_skip h

theorem inv_agree {E : Env} {A : Args} {d d' : Dir} (h : Inv E A d) (ha : Agree d d') : Inv E A d' := by
  refine ⟨fun s hs => ?_, ?_, ?_⟩
  · have : seedOk E d s = true := by
      unfold seedOk at hs ⊢
      rwa [ha .seed (by simp)] at hs
    exact good_agree (h.hGood s this) (fun x h1 _ => ha x h1)
  · rw [ha .base (by simp)]; exact h.hBase
  · rw [ha .medIdx (by simp), ha .med (by simp)]; exact h.hMed

theorem inv_step {E : Env} {A : Args} (hI : InputOk A) (hS : StepsOk E A) (hc : A.input.n < chunk ∨ ¬ A.md < A.input.dim) (s : Nat) (skip : Bool) (run : Nat)
    (c : Crash) {d : Dir} (h : Inv E A d) :
    Res (fit E (A.call s skip) run c d) (fun d' => Good E (A.call s skip) d' ∧ d' .seed = some (E.intText s)) (fun d' => skip = true → Inv E A d') := by
  cases hq : skip && seedOk E d s with
  | true =>
    rw [Bool.and_eq_true] at hq
    obtain ⟨rfl, hs⟩ := hq
    have hg := h.hGood s hs
    have := fit_noop E (A := A.call s true) run c rfl hs (good_looks (input_call hI s true) (steps_call hS s true) hg)
    cases hx : fit E (A.call s true) run c d with
    | done d' => rw [hx] at this; exact ⟨good_agree hg (fun x h1 h2 => this.1 x h2 h1), this.2⟩
    | raised d' => rw [hx] at this; exact fun _ => inv_agree h this
    | crashed d' => rw [hx] at this; exact fun _ => inv_agree h this
    | undef => rw [hx] at this; exact this.elim
  | false =>
    have key : ∀ d', ((A.call s skip).ok = false ∧ d' = d) ∨ Bare (A.call s skip) (if seedOk E d s then d .seed else none) d' → skip = true → Inv E A d' := by
      rintro d' (⟨_, rfl⟩ | hb) hk
      · exact h
      · rw [hk, Bool.true_and] at hq
        rw [hq] at hb
        simp only [Bool.false_eq_true, if_false] at hb
        refine ⟨fun t ht => ?_, hb.hBase, hb.hMed⟩
        obtain ⟨f, h1, _⟩ := seedOk_iff.1 ht
        rw [hb.hSeed] at h1
        cases h1
    have := fit_rebuild (input_call hI s skip) (steps_call hS s skip) hc run c (d := d) hq h.hBase h.hMed
    cases hx : fit E (A.call s skip) run c d with
    | done d' => rw [hx] at this; exact this
    | raised d' => rw [hx] at this; exact key d' this
    | crashed d' => rw [hx] at this; exact key d' this
    | undef => rw [hx] at this; exact this.elim

theorem hist_inv {E : Env} {A : Args} (hI : InputOk A) (hS : StepsOk E A) (hc : A.input.n < chunk ∨ ¬ A.md < A.input.dim) {d : Dir} (h : Hist E A d) : Inv E A d := by
  induction h with
  | start d h1 h2 h3 =>
    refine ⟨fun s hs => ?_, h2, h3⟩
    obtain ⟨f, e, _⟩ := seedOk_iff.1 hs
    rw [h1] at e
    cases e
  | back d d' s run skip _ hf ih =>
    have := inv_step hI hS hc s skip run none ih
    rw [hf] at this
    exact inv_done hI hS this.1 this.2
  | cut d d' s run c _ hf ih =>
    have := inv_step hI hS hc s true run c ih
    rcases hf with hf | hf <;> rw [hf] at this <;> exact this rfl

/-- **C93.** After any such history a call never runs into undefined behaviour, and if it returns, every file comes from the
vectors, the parameters and the seed of this call. -/
theorem C93_history {E : Env} {A : Args} (hI : InputOk A) (hS : StepsOk E A) (hc : A.input.n < chunk ∨ ¬ A.md < A.input.dim) {d : Dir} (h : Hist E A d)
    (s : Nat) (skip : Bool) (run : Nat) (c : Crash) :
    fit E (A.call s skip) run c d ≠ .undef ∧ ∀ d', fit E (A.call s skip) run c d = .done d' → Good E (A.call s skip) d' ∧ d' .seed = some (E.intText s) := by
  have := inv_step hI hS hc s skip run c (hist_inv hI hS hc h)
  refine ⟨fun e => ?_, fun d' e => ?_⟩
  · rw [e] at this; exact this
  · rw [e] at this; exact this

/-- **C93.** What `fit` leaves is opened with the same sizes, if the prefix has one index. -/
theorem C93_reopen {E : Env} {A : Args} (hI : InputOk A) (hS : StepsOk E A) (hA : A.ok = true) {d : Dir} (h : Good E A d) :
    fromPrefix [(A.R, A.md)] d = some ⟨A.input.n, A.input.dim, A.md, A.R⟩ := by
  have hb := good_base hI hS h
  obtain ⟨r, r', b, v, ix, rot, ids, nodes, g1, g2, g3, g4, g5, _⟩ := h.hIndex
  rw [g1] at hb
  obtain ⟨x1, x2, x3⟩ := hS.hIndex _ _ _ _ _ _ hb g3 g4
  simp only at x1 x2 x3
  unfold validBase at hb
  simp only [Bool.and_eq_true, beq_iff_eq] at hb
  obtain ⟨⟨y1, y2⟩, y3⟩ := hb
  have hmd : A.md ≤ A.input.dim := by
    unfold Args.ok at hA
    simp only [Bool.and_eq_true, decide_eq_true_eq] at hA
    exact hA.2
  have hn := hI.hn.1
  have hd := hI.hd.1
  unfold fromPrefix
  simp only
  rw [g5]
  simp only
  rw [if_neg (by omega), x2, x3, if_neg (by simp), g1]
  simp only
  rw [if_neg (by omega), y2, y3, if_neg (by omega), if_neg (by rw [y1]; push_cast; simp), if_pos ⟨rfl, by exact_mod_cast hmd⟩]
  simp

/-! ### A concrete environment -/

def ring (n : Nat) : List (List Nat) := (List.range n).map (fun i => [(i + 1) % n])

/-- Seeds in unary; a "rotation" that adds the seed; a ring whose start depends on all parameters; the builder of C92. -/
def env : Env where
  pcaFit raw s := some (leBytes 8 (leNat ((raw.drop 4).take 4)) ++ List.replicate (leNat ((raw.drop 4).take 4) * 4 + leNat ((raw.drop 4).take 4) * leNat ((raw.drop 4).take 4) * 4) (UInt8.ofNat s))
  pcaRow p r := r.map (· + p.getD 8 0)
  medoid b ep _ := some (leBytes 4 ep, leBytes 4 ep ++ b.drop 8)
  vamana raw R L alpha s _ := some (Vamana.graphFile (ring (leNat (raw.take 4))) R ((L + alpha + s) % leNat (raw.take 4)) 0)
  laser n md dim R s b v _ := (LaserBuild.build ⟨n, R, md, dim⟩ (LaserBuild.quant0 md) v b (List.replicate (4 * md) (UInt8.ofNat s)) (List.range n) (List.range n) 0).map
    (Option.map (fun x => (x.index, x.rotator, x.cacheIds, x.cacheNodes)))
  intText s := List.replicate s 49 ++ [10]
  intParse f := some (f.length - 1)

theorem ring_length (n : Nat) : (ring n).length = n := by unfold ring; simp

theorem ring_recs (n : Nat) : ((ring n).flatMap Vamana.encRec).length = 8 * n := by
  have : ∀ l : List Nat, ((l.map (fun i => [(i + 1) % n])).flatMap Vamana.encRec).length = 8 * l.length := by
    intro l
    induction l with
    | nil => rfl
    | cons x l ih =>
      rw [List.map_cons, List.flatMap_cons, List.length_append, ih, List.length_cons]
      have : (Vamana.encRec [(x + 1) % n]).length = 8 := by
        unfold Vamana.encRec Vamana.encU32s
        simp [leBytes_length]
      omega
  unfold ring
  rw [this, List.length_range]

/-- The builder on the ring, for any base of the right shape. -/
theorem env_laser {n md dim R s start b r} (hR : R % 32 = 0 ∧ 0 < R ∧ R < 2 ^ 32) (hmd : md % 64 = 0) (hd : 0 < dim) (hn : 0 < n ∧ n < 2 ^ 31) (hs : start < 2 ^ 32)
    (hb : 8 ≤ b.length ∧ leNat ((b.drop 4).take 4) = dim) :
    env.laser n md dim R s b (Vamana.graphFile (ring n) R start 0) r =
      some (some (indexImage n (LaserBuild.Geo.perPage ⟨n, R, md, dim⟩) (LaserBuild.Geo.pageSize ⟨n, R, md, dim⟩) (LaserBuild.metas ⟨n, R, md, dim⟩ start)
        (LaserBuild.imageOf ⟨n, R, md, dim⟩ (LaserBuild.quant0 md) (LaserBuild.vec dim b) (ring n)), List.replicate (4 * md) (UInt8.ofNat s), LaserFiles.cacheIds [],
        LaserFiles.cacheNodes (LaserBuild.Geo.nodeLen ⟨n, R, md, dim⟩) [])) := by
  have := LaserBuild.build_any (G := ⟨n, R, md, dim⟩) ⟨hR.1, hmd, hd⟩ (LaserBuild.quant0_ok ⟨n, R, md, dim⟩) (g := ring n) (maxDeg := R) (start := start) (frozen := 0)
    (by simp only; omega) (Nat.le_of_eq (ring_length n)) hs hR.2.2 (by
      intro a ha
      unfold ring at ha
      obtain ⟨i, _, rfl⟩ := List.mem_map.1 ha
      refine ⟨by simp only [List.length_singleton]; omega, fun x hx => ?_⟩
      rw [List.mem_singleton] at hx
      rw [hx]
      exact Nat.mod_lt _ hn.1) (by rw [ring_recs]; omega) hb.1 hb.2 (ord := List.range n) (List.Perm.refl _) (List.replicate (4 * md) (UInt8.ofNat s))
    (order := List.range n) (cached := 0) (by simp)
  unfold env
  simp only
  rw [this]
  rfl

theorem raw_head {A : Args} (h : InputOk A) : leNat (A.raw.take 4) = A.input.n ∧ leNat ((A.raw.drop 4).take 4) = A.input.dim := by
  have h1 := h.hn.2
  have h2 := h.hd.2
  obtain ⟨e1, e2, _⟩ := fbin_fields A.input.n A.input.dim A.input.rows.flatten
  unfold Args.raw
  rw [e1, e2]
  exact ⟨leNat_leBytes_of_lt (by omega), leNat_leBytes_of_lt (by omega)⟩

theorem valid_head {b : Bytes} {n dim : Nat} (hd : dim < 2 ^ 31) (h : validBase (some b) n dim = true) : 8 ≤ b.length ∧ leNat ((b.drop 4).take 4) = dim := by
  unfold validBase at h
  simp only [Bool.and_eq_true, beq_iff_eq] at h
  obtain ⟨⟨h1, _⟩, h3⟩ := h
  refine ⟨by omega, ?_⟩
  unfold i32 at h3
  have : leNat ((b.drop 4).take 4) < 2 ^ 32 := by
    have := leNat_lt ((b.drop 4).take 4)
    have hl : ((b.drop 4).take 4).length ≤ 4 := by rw [List.length_take]; omega
    calc _ < _ := this
      _ ≤ 256 ^ 4 := Nat.pow_le_pow_right (by omega) hl
  split at h3 <;> omega

theorem graph_valid {n R start : Nat} (hR : R < 2 ^ 32) (hn : n < 2 ^ 31) : validVamana (some (Vamana.graphFile (ring n) R start 0)) R = true := by
  unfold validVamana Vamana.graphFile
  simp only [List.append_assoc]
  rw [List.take_left' (leBytes_length 8 _), List.drop_left' (leBytes_length 8 _), List.take_left' (leBytes_length 4 _)]
  have e : ∀ a b c d e : Bytes, a.length = 8 → b.length = 4 → c.length = 4 → (a ++ (b ++ (c ++ (d ++ e)))).drop 16 = d ++ e := by
    intro a b c d e h1 h2 h3
    have : a ++ (b ++ (c ++ (d ++ e))) = (a ++ b ++ c) ++ (d ++ e) := by simp
    rw [this, List.drop_left' (by simp; omega)]
  rw [e _ _ _ _ _ (leBytes_length 8 _) (leBytes_length 4 _) (leBytes_length 4 _), List.take_left' (leBytes_length 8 _), ring_recs]
  simp only [List.length_append, leBytes_length, ring_recs]
  rw [leNat_leBytes_of_lt (by omega), leNat_leBytes_of_lt (by omega), leNat_leBytes_of_lt (by omega)]
  simp only [Bool.and_eq_true, decide_eq_true_eq, beq_iff_eq, and_true]
  omega

/-- The environment keeps its promises for every input and every set of parameters that `fit` accepts. -/
theorem env_ok {A : Args} (hI : InputOk A) (hR : A.R % 32 = 0 ∧ 0 < A.R ∧ A.R < 2 ^ 32) (hmd : A.md % 64 = 0 ∧ A.md < 2 ^ 64) : StepsOk env A := by
  obtain ⟨r1, r2⟩ := raw_head hI
  have hn := hI.hn
  have hlt : ∀ x, x % A.input.n < 2 ^ 32 := fun x => by have := Nat.mod_lt x hn.1; omega
  refine ⟨fun s => ⟨?_, ?_⟩, ?_, ?_, ?_, ?_, ?_, ?_⟩
  · unfold env; simp
  · unfold env; simp
  · intro p r h; unfold env; simp [h]
  · intro s p hp
    unfold env at hp
    simp only [Option.some.injEq] at hp
    rw [r2] at hp
    rw [← hp]
    unfold validPca
    simp only [List.take_left' (leBytes_length 8 _), List.length_append, leBytes_length, List.length_replicate]
    rw [leNat_leBytes_of_lt (by have := hI.hd.2; omega)]
    simp only [Bool.and_eq_true, beq_iff_eq, and_true]
    omega
  · intro b s i v h
    unfold env at h
    simp only [Option.some.injEq, Prod.mk.injEq] at h
    obtain ⟨rfl, rfl⟩ := h
    constructor
    · exact List.ne_nil_of_length_pos (by rw [leBytes_length]; omega)
    · exact List.ne_nil_of_length_pos (by rw [List.length_append, leBytes_length]; omega)
  · intro s r v h
    unfold env at h
    simp only [Option.some.injEq] at h
    rw [← h, r1]
    exact graph_valid hR.2.2 hn.2
  · intro s r r' b v hb h
    have h2 : Vamana.graphFile (ring A.input.n) A.R ((A.L + A.alpha + s) % A.input.n) 0 = v := by
      unfold env at h
      simp only [Option.some.injEq] at h
      rw [r1] at h
      exact h
    rw [← h2, env_laser hR hmd.1 hI.hd.1 hn (hlt _) (valid_head hI.hd.2 hb)]
    simp
  · intro s r r' b v x hb h hx
    have h2 : Vamana.graphFile (ring A.input.n) A.R ((A.L + A.alpha + s) % A.input.n) 0 = v := by
      unfold env at h
      simp only [Option.some.injEq] at h
      rw [r1] at h
      exact h
    rw [← h2, env_laser hR hmd.1 hI.hd.1 hn (hlt _) (valid_head hI.hd.2 hb)] at hx
    simp only [Option.some.injEq] at hx
    rw [← hx]
    simp only
    unfold indexImage LaserBuild.metas
    simp only [List.flatMap_cons, List.append_assoc, pad]
    refine ⟨?_, ?_, ?_⟩
    · simp only [List.length_append, leBytes_length]; omega
    · rw [List.take_left' (leBytes_length 8 _), leNat_leBytes_of_lt (by omega)]
    · rw [List.drop_left' (leBytes_length 8 _), List.take_left' (leBytes_length 8 _), leNat_leBytes_of_lt (by omega)]

/-! ### Calls of the environment return -/

theorem exec_step {s : Dir → Stage} {ss : List (Dir → Stage)} {Q Q' B : Dir → Prop} {R : Out → Prop} (hs : StageOk s Q Q' B) (hr : ∀ d, Q d → s d ≠ .raise)
    (ht : ∀ d, Q' d → R (exec ss none d)) (d : Dir) (h : Q d) : R (exec (s :: ss) none d) := by
  have h1 := hs d h
  have h2 := hr d h
  unfold exec
  cases hw : s d with
  | raise => exact absurd hw h2
  | undef => rw [hw] at h1; exact h1.elim
  | write l => rw [hw] at h1; exact ht _ h1.1

theorem fit_returns {A : Args} (hI : InputOk A) (hA : A.ok = true) (hR : A.R % 32 = 0 ∧ 0 < A.R ∧ A.R < 2 ^ 32) (hmd : A.md % 64 = 0 ∧ A.md < 2 ^ 64)
    (hc : A.input.n < chunk ∨ ¬ A.md < A.input.dim) (run : Nat) {d : Dir}
    (hs : (A.skip && seedOk env d A.seed) = false) (hb : ∀ b, d .base = some b → b.length ≤ 8 + A.input.n * A.input.dim * 4)
    (hm : A.disable = true → d .medIdx = none ∧ d .med = none) : ∃ d', fit env A run none d = .done d' := by
  have hS := env_ok hI hR hmd
  have hlt : ∀ x, x % A.input.n < 2 ^ 32 := fun x => by have := Nat.mod_lt x hI.hn.1; have := hI.hn.2; omega
  obtain ⟨r1, r2⟩ := raw_head hI
  have hB : ∃ sd, Bare A sd (if seedOk env d A.seed = true then d else d.set .seed none) := by
    refine ⟨_, rfl, ?_, ?_⟩
    · split
      · exact hb
      · simpa using hb
    · split
      · exact hm
      · simpa using hm
  obtain ⟨sd, hB⟩ := hB
  have key : ∃ d2, exec (stages env A false run) none (if seedOk env d A.seed = true then d else d.set .seed none) = .done d2 := by
    unfold stages
    refine exec_step (R := fun o => ∃ d2, o = .done d2) (raw_rebuild A sd) ?_ (exec_step (R := fun o => ∃ d2, o = .done d2) (pca_rebuild hI hS hc) ?_
      (exec_step (R := fun o => ∃ d2, o = .done d2) med_rebuild ?_ (exec_step (R := fun o => ∃ d2, o = .done d2) (vam_rebuild run) ?_
      (exec_step (R := fun o => ∃ d2, o = .done d2) (laser_rebuild hI hS run) ?_
      (exec_step (R := fun o => ∃ d2, o = .done d2) seed_rebuild ?_ (fun d _ => ⟨d, rfl⟩)))))) _ hB
    · intro d _ h
      unfold rawStage at h
      split at h <;> cases h
    · intro d hq h
      unfold pcaStage at h
      rw [raw_seen hq] at h
      simp only [Bool.false_and, Bool.false_eq_true, if_false] at h
      split at h
      · unfold env at h; cases h
      · split at h <;> cases h
    · intro d hq h
      obtain ⟨b, hb, _⟩ := base_valid hI hS hq
      unfold medStage at h
      rw [hb] at h
      split at h
      · cases h
      · unfold env at h; cases h
    · intro d hq h
      unfold vamStage at h
      rw [raw_seen hq.toQ1] at h
      simp only [Bool.false_and, Bool.false_eq_true, if_false] at h
      unfold env at h; cases h
    · intro d hq h
      obtain ⟨b, hb, hbv⟩ := base_valid hI hS hq.toQ2
      obtain ⟨r, v, hv, hvm⟩ := hq.vam
      unfold laserStage at h
      rw [if_neg (by omega), hb, hv] at h
      have h2 : Vamana.graphFile (ring A.input.n) A.R ((A.L + A.alpha + A.seed) % A.input.n) 0 = v := by
        unfold env at hvm
        simp only [Option.some.injEq] at hvm
        rw [r1] at hvm
        exact hvm
      simp only [Bool.false_and, Bool.false_eq_true, if_false] at h
      rw [← h2, env_laser hR hmd.1 hI.hd.1 hI.hn (hlt _) (valid_head hI.hd.2 hbv)] at h
      cases h
    · intro d _ h
      unfold seedStage at h
      cases h
  obtain ⟨d2, hx⟩ := key
  unfold fit
  rw [if_neg (by rw [hA]; simp)]
  simp only
  rw [hs, hx]
  exact ⟨_, rfl⟩

/-- Three vectors of dimension 128, main dimension 128 or 64. -/
def rows0 (x : UInt8) : List Bytes := [List.replicate 512 x, List.replicate 512 2, List.replicate 512 3]
def args0 : Args := ⟨⟨3, 128, rows0 1, false⟩, none, 32, 100, 1, 200, 4, false, 7, true⟩

theorem rows0_ok (x : UInt8) : (rows0 x).length = 3 ∧ ∀ r ∈ rows0 x, r.length = 4 * 128 := by
  refine ⟨rfl, fun r hr => ?_⟩
  unfold rows0 at hr
  simp only [List.mem_cons, List.not_mem_nil, or_false] at hr
  rcases hr with rfl | rfl | rfl <;> exact List.length_replicate

theorem input_ok (A : Args) (x : UInt8) (h : A.input = ⟨3, 128, rows0 x, false⟩) : InputOk A := by
  refine ⟨?_, ?_, ?_⟩ <;> rw [h]
  · show 0 < 3 ∧ 3 < 2 ^ 31
    decide
  · show 0 < 128 ∧ 128 < 2 ^ 31
    decide
  · exact rows0_ok x

/-- The first call on an empty prefix. -/
theorem first {A : Args} {x : UInt8} (h : A.input = ⟨3, 128, rows0 x, false⟩) (hA : A.ok = true) (hR : A.R % 32 = 0 ∧ 0 < A.R ∧ A.R < 2 ^ 32)
    (hmd : A.md % 64 = 0 ∧ A.md < 2 ^ 64) : ∃ d1, fit env A 0 none (fun _ => none) = .done d1 ∧ Good env A d1 ∧ seedOk env d1 A.seed = true := by
  have hI := input_ok A x h
  have hc : A.input.n < chunk ∨ ¬ A.md < A.input.dim := Or.inl (by rw [h]; show 3 < 100000; decide)
  have hs : seedOk env (fun _ => none) A.seed = false := rfl
  obtain ⟨d1, hf⟩ := fit_returns hI hA hR hmd hc 0 (d := fun _ => none) (by rw [hs]; simp) (by simp) (by simp)
  obtain ⟨g1, g2⟩ := C93_fresh hI (env_ok hI hR hmd) hc 0 (Or.inr hs) (by simp) (by simp) hf
  refine ⟨d1, hf, g1, seedOk_iff.2 ⟨_, g2, ?_, ?_⟩⟩
  · unfold env; simp
  · unfold env; simp

example : ∃ d1 d2, fit env args0 0 none (fun _ => none) = .done d1 ∧ Good env args0 d1 ∧ fit env args0 1 none d1 = .done d2 ∧ Good env args0 d2 ∧
    fromPrefix [(32, 128)] d2 = some ⟨3, 128, 128, 32⟩ := by
  have hI := input_ok args0 1 rfl
  have hS := env_ok hI (by decide) (by decide)
  obtain ⟨d1, h1, h2, h3⟩ := first (A := args0) (x := 1) rfl (by decide) (by decide) (by decide)
  obtain ⟨d2, k1, _, _, k2⟩ := C93_again hI hS (by decide) (by decide) 1 rfl h3 h2
  exact ⟨d1, d2, h1, h2, k1, k2, C93_reopen hI hS (by decide) k2⟩

/-- A first call killed in any step, then another: it returns only what it was asked for. -/
example (k : Nat) (g d d' : Dir) (h : fit env (args0.call 7 true) 0 (some (k, g)) (fun _ => none) = .crashed d) (h' : fit env (args0.call 7 true) 1 none d = .done d') :
    Good env (args0.call 7 true) d' := by
  have hI := input_ok args0 1 rfl
  have hc : args0.input.n < chunk ∨ ¬ args0.md < args0.input.dim := Or.inl (by decide)
  exact ((C93_history hI (env_ok hI (by decide) (by decide)) hc (.cut _ _ 7 0 _ (.start _ rfl (by simp) (by simp)) (Or.inr h)) 7 true 1 none).2 d' h').1

end Alaya.LaserFit
