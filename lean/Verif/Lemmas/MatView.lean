import Verif.Model.MatView
import Verif.Props.C58
import Verif.Lemmas.FieldIndex
import Verif.Lemmas.ListAux

namespace Alaya.MatView
open Spec

theorem eqv_symm {a b : MetaValue} (h : a.eqv b = true) : b.eqv a = true :=
  (eqv_iff b a).mpr (VEq_symm ((eqv_iff a b).mp h))

theorem VEq_trans {a b c : MetaValue} (h1 : VEq a b) (h2 : VEq b c) : VEq a c := by
  cases a <;> cases b <;> cases c <;> simp only [VEq, dblEq] at *
  · exact h1.trans h2
  · exact ⟨h1.1, h2.2.1, h1.2.2.trans h2.2.2⟩
  · exact h1.trans h2
  · exact h1.trans h2

theorem eqv_trans {a b c : MetaValue} (h1 : a.eqv b = true) (h2 : b.eqv c = true) : a.eqv c = true :=
  (eqv_iff a c).mpr (VEq_trans ((eqv_iff a b).mp h1) ((eqv_iff b c).mp h2))

/-- The value equals one of the list. -/
def In (x : MetaValue) (vs : List MetaValue) : Prop := ∃ v ∈ vs, x.eqv v = true

theorem hasValue_iff {vs : List MetaValue} {v : MetaValue} : hasValue vs v = true ↔ In v vs := by
  unfold hasValue In
  rw [List.any_eq_true]
  exact ⟨fun ⟨u, h1, h2⟩ => ⟨u, h1, eqv_symm h2⟩, fun ⟨u, h1, h2⟩ => ⟨u, h1, eqv_symm h2⟩⟩

theorem in_append {x : MetaValue} {a b : List MetaValue} : In x (a ++ b) ↔ In x a ∨ In x b := by
  unfold In
  constructor
  · rintro ⟨v, h1, h2⟩
    rcases List.mem_append.mp h1 with h | h
    · exact Or.inl ⟨v, h, h2⟩
    · exact Or.inr ⟨v, h, h2⟩
  · rintro (⟨v, h1, h2⟩ | ⟨v, h1, h2⟩)
    · exact ⟨v, List.mem_append.mpr (Or.inl h1), h2⟩
    · exact ⟨v, List.mem_append.mpr (Or.inr h1), h2⟩

theorem in_single {x v : MetaValue} : In x [v] ↔ x.eqv v = true := by
  unfold In; simp

theorem in_appendUnique {x : MetaValue} {vs : List MetaValue} {v : MetaValue} :
    In x (appendUnique vs v) ↔ In x vs ∨ x.eqv v = true := by
  unfold appendUnique
  by_cases h : hasValue vs v = true
  · rw [if_pos h]
    refine ⟨Or.inl, ?_⟩
    rintro (h' | h')
    · exact h'
    · obtain ⟨u, h1, h2⟩ := hasValue_iff.mp h
      exact ⟨u, h1, eqv_trans h' h2⟩
  · rw [if_neg h, in_append, in_single]

theorem in_foldl_appendUnique {x : MetaValue} (l acc : List MetaValue) :
    In x (l.foldl appendUnique acc) ↔ In x acc ∨ In x l := by
  induction l generalizing acc with
  | nil => simp [In]
  | cons v l ih =>
    rw [List.foldl_cons, ih, in_appendUnique, or_assoc]
    have : In x (v :: l) ↔ x.eqv v = true ∨ In x l := by
      rw [show v :: l = [v] ++ l from rfl, in_append, in_single]
    rw [this]

theorem in_intersect_loop {x : MetaValue} (rhs l acc : List MetaValue) :
    In x (l.foldl (fun acc v => if hasValue rhs v then appendUnique acc v else acc) acc) ↔
      In x acc ∨ (In x l ∧ In x rhs) := by
  induction l generalizing acc with
  | nil => simp [In]
  | cons v l ih =>
    have hc : In x (v :: l) ↔ x.eqv v = true ∨ In x l := by
      rw [show v :: l = [v] ++ l from rfl, in_append, in_single]
    rw [List.foldl_cons, ih, hc]
    by_cases h : hasValue rhs v = true
    · rw [if_pos h, in_appendUnique]
      have : x.eqv v = true → In x rhs := by
        intro he
        obtain ⟨u, h1, h2⟩ := hasValue_iff.mp h
        exact ⟨u, h1, eqv_trans he h2⟩
      constructor
      · rintro ((h' | h') | ⟨h1, h2⟩)
        · exact Or.inl h'
        · exact Or.inr ⟨Or.inl h', this h'⟩
        · exact Or.inr ⟨Or.inr h1, h2⟩
      · rintro (h' | ⟨h' | h', h2⟩)
        · exact Or.inl (Or.inl h')
        · exact Or.inl (Or.inr h')
        · exact Or.inr ⟨h', h2⟩
    · rw [if_neg h]
      have : ¬ (x.eqv v = true ∧ In x rhs) := by
        rintro ⟨h1, u, h2, h3⟩
        exact h (hasValue_iff.mpr ⟨u, h2, eqv_trans (eqv_symm h1) h3⟩)
      constructor
      · rintro (h' | ⟨h1, h2⟩)
        · exact Or.inl h'
        · exact Or.inr ⟨Or.inr h1, h2⟩
      · rintro (h' | ⟨h' | h', h2⟩)
        · exact Or.inl h'
        · exact absurd ⟨h', h2⟩ this
        · exact Or.inr ⟨h', h2⟩

theorem in_intersect {x : MetaValue} {l rhs : List MetaValue} : In x (intersect l rhs) ↔ In x l ∧ In x rhs := by
  unfold intersect
  rw [in_intersect_loop]
  simp [In]

/-- The conjunction of the collected conditions is the filter. -/
theorem combine_and (l : List Bool) : combine .and l = l.all id := by
  cases l <;> rfl

mutual
theorem collectConj_eval (m : MetaMap) : (f : Filter) → ∀ cs, collectConj f = some cs →
    f.eval m = cs.all fun c => c.eval m
  | .mk op conds subs => by
    intro cs h
    unfold collectConj at h
    unfold Filter.eval
    by_cases he : (conds.isEmpty && subs.isEmpty) = true
    · rw [if_pos he] at h ⊢
      cases h; rfl
    · rw [if_neg he] at h ⊢
      by_cases ho : op ≠ .and
      · rw [if_pos ho] at h; cases h
      · rw [if_neg ho] at h
        have ho : op = .and := by simpa using ho
        cases hs : collectSubs subs with
        | none => rw [hs] at h; cases h
        | some ss =>
          rw [hs] at h
          cases h
          rw [ho, combine_and, List.all_append, collectSubs_eval m subs ss hs, List.all_append]
          congr 1
          rw [List.all_map]
          rfl
theorem collectSubs_eval (m : MetaMap) : (fs : List Filter) → ∀ cs, collectSubs fs = some cs →
    (Filter.evalSubs m fs).all id = cs.all fun c => c.eval m
  | [] => by intro cs h; cases h; rfl
  | f :: fs => by
    intro cs h
    unfold collectSubs at h
    cases hf : collectConj f with
    | none => rw [hf] at h; cases h
    | some c1 =>
      rw [hf] at h
      cases hs : collectSubs fs with
      | none => simp only [hs] at h; cases h
      | some c2 =>
        simp only [hs] at h
        cases h
        rw [Filter.evalSubs, List.all_cons, List.all_append, collectConj_eval m f c1 hf, collectSubs_eval m fs c2 hs]
        rfl
end

theorem condValues_eval {c : FilterCond} {vs : List MetaValue} (h : condValues c = some vs) (m : MetaMap) :
    c.eval m = true ↔ ∃ x, m.get c.field = some x ∧ In x vs := by
  unfold condValues at h
  unfold FilterCond.eval
  cases hg : m.get c.field with
  | none => simp
  | some x =>
    cases ho : c.op <;> rw [ho] at h <;> simp only at h ⊢ <;> try cases h
    · have : In x (appendUnique [] c.value) ↔ x.eqv c.value = true := by rw [in_appendUnique]; simp [In]
      simp [this]
    · have : In x (c.values.foldl appendUnique []) ↔ In x c.values := by rw [in_foldl_appendUnique]; simp [In]
      simp only [Option.some.injEq, exists_eq_left', this]
      exact hasValue_iff

/-- What the analysis loop computes. -/
theorem analyzeLoop_spec (field : Bytes) (m : MetaMap) (cs : List FilterCond) :
    ∀ (allowed : Option (List MetaValue)) (cov : Bool) (r : Option (List MetaValue)) (cov' : Bool),
      analyzeLoop field cs allowed cov = some (r, cov') →
      (allowed = none → r = none → ∀ c ∈ cs, c.field ≠ field) ∧
      (cov' = true → cov = true ∧ ∀ c ∈ cs, c.field = field) ∧
      (r = none → allowed = none) ∧
      ∀ v, r = some v → ∀ x,
        ((∀ c ∈ cs, c.eval m = true) → m.get field = some x → (∀ a, allowed = some a → In x a) → In x v) ∧
        (m.get field = some x → In x v → (∀ a, allowed = some a → In x a) ∧ ∀ c ∈ cs, c.field = field → c.eval m = true) := by
  induction cs with
  | nil =>
    intro allowed cov r cov' h
    cases h
    refine ⟨by simp, fun h => ⟨h, by simp⟩, fun h => h, ?_⟩
    intro v hv x
    refine ⟨fun _ _ h => h v hv, fun _ h => ⟨fun a ha => ?_, by simp⟩⟩
    rw [hv] at ha; cases ha; exact h
  | cons c cs ih =>
    intro allowed cov r cov' h
    rw [analyzeLoop] at h
    by_cases hf : c.field ≠ field
    · rw [if_pos hf] at h
      obtain ⟨h1, h2, h3, h4⟩ := ih _ _ _ _ h
      refine ⟨?_, ?_, h3, ?_⟩
      · intro ha hr c' hc'
        rcases List.mem_cons.mp hc' with rfl | hc'
        · exact hf
        · exact h1 ha hr c' hc'
      · intro hc; exact absurd (h2 hc).1 (by simp)
      · intro v hv x
        obtain ⟨a, b⟩ := h4 v hv x
        refine ⟨fun hall hg hal => a (fun c' hc' => hall c' (List.mem_cons_of_mem _ hc')) hg hal, fun hg hin => ?_⟩
        obtain ⟨b1, b2⟩ := b hg hin
        refine ⟨b1, fun c' hc' hcf => ?_⟩
        rcases List.mem_cons.mp hc' with rfl | hc'
        · exact absurd hcf hf
        · exact b2 c' hc' hcf
    · rw [if_neg hf] at h
      have hf : c.field = field := by simpa using hf
      cases hv : condValues c with
      | none => rw [hv] at h; cases h
      | some vs =>
        rw [hv] at h
        have hce := condValues_eval hv m
        rw [hf] at hce
        have key : ∀ allowed', (∀ x, (∀ a, allowed' = some a → In x a) ↔ ((∀ a, allowed = some a → In x a) ∧ In x vs)) →
            allowed' ≠ none → analyzeLoop field cs allowed' cov = some (r, cov') →
            (allowed = none → r = none → ∀ c' ∈ c :: cs, c'.field ≠ field) ∧
            (cov' = true → cov = true ∧ ∀ c' ∈ c :: cs, c'.field = field) ∧
            (r = none → allowed = none) ∧
            ∀ v, r = some v → ∀ x,
              ((∀ c' ∈ c :: cs, c'.eval m = true) → m.get field = some x → (∀ a, allowed = some a → In x a) → In x v) ∧
              (m.get field = some x → In x v → (∀ a, allowed = some a → In x a) ∧
                ∀ c' ∈ c :: cs, c'.field = field → c'.eval m = true) := by
          intro allowed' hal hne hrun
          obtain ⟨h1, h2, h3, h4⟩ := ih _ _ _ _ hrun
          refine ⟨fun _ hr => absurd (h3 hr) hne, ?_, fun hr => absurd (h3 hr) hne, ?_⟩
          · intro hc
            obtain ⟨g1, g2⟩ := h2 hc
            refine ⟨g1, fun c' hc' => ?_⟩
            rcases List.mem_cons.mp hc' with rfl | hc'
            · exact hf
            · exact g2 c' hc'
          · intro v hv x
            obtain ⟨a, b⟩ := h4 v hv x
            constructor
            · intro hall hg hin
              refine a (fun c' hc' => hall c' (List.mem_cons_of_mem _ hc')) hg ((hal x).mpr ⟨hin, ?_⟩)
              obtain ⟨y, hy1, hy2⟩ := hce.mp (hall c List.mem_cons_self)
              rw [hg] at hy1; cases hy1; exact hy2
            · intro hg hin
              obtain ⟨b1, b2⟩ := b hg hin
              obtain ⟨d1, d2⟩ := (hal x).mp b1
              refine ⟨d1, fun c' hc' hcf => ?_⟩
              rcases List.mem_cons.mp hc' with rfl | hc'
              · exact hce.mpr ⟨x, hg, d2⟩
              · exact b2 c' hc' hcf
        cases allowed with
        | none =>
          exact key (some vs) (by intro x; simp) (by simp) h
        | some a =>
          exact key (some (intersect a vs)) (by intro x; simp [in_intersect]) (by simp) h

/-! Values without repetition. -/

def Apart (vs : List MetaValue) : Prop := vs.Pairwise fun a b => ¬ a.eqv b = true

theorem apart_appendUnique {vs : List MetaValue} (h : Apart vs) (v : MetaValue) : Apart (appendUnique vs v) := by
  unfold appendUnique
  by_cases hv : hasValue vs v = true
  · rw [if_pos hv]; exact h
  · rw [if_neg hv]
    unfold Apart
    rw [List.pairwise_append]
    refine ⟨h, by simp, ?_⟩
    intro a ha b hb he
    simp only [List.mem_singleton] at hb
    subst hb
    exact hv (hasValue_iff.mpr ⟨a, ha, eqv_symm he⟩)

theorem apart_foldl (l : List MetaValue) : ∀ acc, Apart acc → Apart (l.foldl appendUnique acc) := by
  induction l with
  | nil => intro _ h; exact h
  | cons v l ih => intro acc h; exact ih _ (apart_appendUnique h v)

theorem apart_intersect_loop (rhs l : List MetaValue) : ∀ acc, Apart acc →
    Apart (l.foldl (fun acc v => if hasValue rhs v then appendUnique acc v else acc) acc) := by
  induction l with
  | nil => intro _ h; exact h
  | cons v l ih =>
    intro acc h
    apply ih
    show Apart (if hasValue rhs v then appendUnique acc v else acc)
    by_cases hv : hasValue rhs v = true
    · rw [if_pos hv]; exact apart_appendUnique h v
    · rw [if_neg hv]; exact h

theorem apart_condValues {c : FilterCond} {vs : List MetaValue} (h : condValues c = some vs) : Apart vs := by
  unfold condValues at h
  cases ho : c.op <;> rw [ho] at h <;> simp only at h <;> cases h
  · exact apart_appendUnique List.Pairwise.nil _
  · exact apart_foldl _ _ List.Pairwise.nil

theorem apart_analyzeLoop (field : Bytes) (cs : List FilterCond) :
    ∀ (allowed : Option (List MetaValue)) (cov : Bool) (v : List MetaValue) (cov' : Bool),
      (∀ a, allowed = some a → Apart a) → analyzeLoop field cs allowed cov = some (some v, cov') → Apart v := by
  induction cs with
  | nil => intro allowed cov v cov' ha h; cases h; exact ha v rfl
  | cons c cs ih =>
    intro allowed cov v cov' ha h
    rw [analyzeLoop] at h
    by_cases hf : c.field ≠ field
    · rw [if_pos hf] at h; exact ih _ _ _ _ ha h
    · rw [if_neg hf] at h
      cases hv : condValues c with
      | none => rw [hv] at h; cases h
      | some vs =>
        rw [hv] at h
        cases allowed with
        | none => exact ih (some vs) _ _ _ (by intro a e; cases e; exact apart_condValues hv) h
        | some a =>
          exact ih (some (intersect a vs)) _ _ _ (by intro a e; cases e; exact apart_intersect_loop _ _ _ List.Pairwise.nil) h

/-! Where the values come from. -/

theorem mem_appendUnique {vs : List MetaValue} {v x : MetaValue} (h : x ∈ appendUnique vs v) : x ∈ vs ∨ x = v := by
  unfold appendUnique at h
  split at h
  · exact Or.inl h
  · simpa using h

theorem mem_foldl_appendUnique (l : List MetaValue) : ∀ acc x, x ∈ l.foldl appendUnique acc → x ∈ acc ∨ x ∈ l := by
  induction l with
  | nil => intro acc x h; exact Or.inl h
  | cons v l ih =>
    intro acc x h
    rcases ih _ _ h with h | h
    · rcases mem_appendUnique h with h | h
      · exact Or.inl h
      · exact Or.inr (by simp [h])
    · exact Or.inr (List.mem_cons_of_mem _ h)

theorem mem_intersect (rhs l : List MetaValue) : ∀ acc x,
    x ∈ l.foldl (fun acc v => if hasValue rhs v then appendUnique acc v else acc) acc → x ∈ acc ∨ x ∈ l := by
  induction l with
  | nil => intro acc x h; exact Or.inl h
  | cons v l ih =>
    intro acc x h
    rcases ih _ _ h with h | h
    · change x ∈ (if hasValue rhs v then appendUnique acc v else acc) at h
      by_cases hv : hasValue rhs v = true
      · rw [if_pos hv] at h
        rcases mem_appendUnique h with h | h
        · exact Or.inl h
        · exact Or.inr (by simp [h])
      · rw [if_neg hv] at h; exact Or.inl h
    · exact Or.inr (List.mem_cons_of_mem _ h)

theorem mem_condValues {c : FilterCond} {vs : List MetaValue} (h : condValues c = some vs) {x : MetaValue} (hx : x ∈ vs) :
    x = c.value ∨ x ∈ c.values := by
  unfold condValues at h
  cases ho : c.op <;> rw [ho] at h <;> simp only at h <;> cases h
  · rcases mem_appendUnique hx with h | h
    · cases h
    · exact Or.inl h
  · rcases mem_foldl_appendUnique _ _ _ hx with h | h
    · cases h
    · exact Or.inr h

theorem mem_analyzeLoop (field : Bytes) (P : MetaValue → Prop) (cs : List FilterCond)
    (hp : ∀ c ∈ cs, P c.value ∧ ∀ x ∈ c.values, P x) :
    ∀ (allowed : Option (List MetaValue)) (cov : Bool) (v : List MetaValue) (cov' : Bool),
      (∀ a, allowed = some a → ∀ x ∈ a, P x) → analyzeLoop field cs allowed cov = some (some v, cov') → ∀ x ∈ v, P x := by
  induction cs with
  | nil => intro allowed cov v cov' ha h; cases h; exact ha v rfl
  | cons c cs ih =>
    intro allowed cov v cov' ha h
    have hp' := fun c' hc' => hp c' (List.mem_cons_of_mem c hc')
    have hc := hp c List.mem_cons_self
    rw [analyzeLoop] at h
    by_cases hf : c.field ≠ field
    · rw [if_pos hf] at h; exact ih hp' _ _ _ _ ha h
    · rw [if_neg hf] at h
      cases hv : condValues c with
      | none => rw [hv] at h; cases h
      | some vs =>
        rw [hv] at h
        cases allowed with
        | none =>
          refine ih hp' (some vs) _ _ _ ?_ h
          intro a e x hx
          cases e
          rcases mem_condValues hv hx with rfl | h'
          · exact hc.1
          · exact hc.2 x h'
        | some a =>
          refine ih hp' (some (intersect a vs)) _ _ _ ?_ h
          intro a' e x hx
          cases e
          rcases mem_intersect _ _ _ _ hx with h' | h'
          · cases h'
          · exact ha a rfl x h'

/-! Encodings. -/

theorem encodeValue_inj {a b : MetaValue} (h : encodeValue a = encodeValue b) : a = b := by
  cases a <;> cases b <;> simp [encodeValue] at h ⊢
  · exact C01_encode_int64_injective _ _ h
  · exact encodeDouble_inj h
  · exact h
  · rename_i x y
    cases x <;> cases y <;> simp_all

/-- Neither NaN nor negative zero. -/
def Plain : MetaValue → Prop
  | .double b => ¬ dblIsNaN b.toNat ∧ b ≠ 0x8000000000000000#64
  | _ => True

theorem eqv_plain {a b : MetaValue} (ha : Plain a) (hb : Plain b) : a.eqv b = true ↔ a = b := by
  rw [eqv_iff]
  cases a <;> cases b <;> simp only [VEq, reduceCtorEq, MetaValue.int.injEq, MetaValue.string.injEq, MetaValue.bool.injEq,
    BitVec.toInt_inj, MetaValue.double.injEq]
  rename_i x y
  constructor
  · rintro ⟨h1, h2, h3⟩
    apply encodeDouble_inj
    apply str_total
    · rw [C02_encode_double_lt_iff]; rintro (h | h)
      · omega
      · exact ha.2 h.1
    · rw [C02_encode_double_lt_iff]; rintro (h | h)
      · omega
      · exact hb.2 h.1
  · rintro rfl
    exact ⟨ha.1, ha.1, rfl⟩

/-! Partitions. -/

theorem findPart_addPart (k : Bytes) (id : Nat) (ps : Parts) (j : Bytes) :
    findPart j (addPart k id ps) = if j = k then some ((findPart k ps).getD [] ++ [id]) else findPart j ps := by
  induction ps with
  | nil =>
    simp only [addPart, findPart]
    by_cases h : k = j
    · rw [if_pos h, if_pos h.symm]; rfl
    · rw [if_neg h, if_neg (fun e => h e.symm)]
  | cons p ps ih =>
    obtain ⟨e, ids⟩ := p
    simp only [addPart]
    by_cases he : e = k
    · rw [if_pos he]
      subst he
      simp only [findPart]
      by_cases hj : e = j
      · subst hj; simp
      · rw [if_neg hj, if_neg (fun e' => hj e'.symm), if_neg hj]
    · rw [if_neg he]
      simp only [findPart]
      by_cases hj : e = j
      · subst hj
        rw [if_pos rfl, if_neg he, if_pos rfl]
      · rw [if_neg hj, ih, if_neg hj, if_neg he]

/-- The partition field of the record is present and has this encoding. -/
def hasEnc (field k : Bytes) (r : Nat × MetaMap) : Bool :=
  match r.2.get field with
  | some v => decide (encodeValue v = k)
  | none => false

theorem findPart_seeds (field : Bytes) (recs : List (Nat × MetaMap)) : ∀ (ps qs : Parts),
    collectSeeds field recs ps = some qs → ∀ (k : Bytes),
      ((findPart k qs).getD []) = ((findPart k ps).getD []) ++
        (recs.filter (hasEnc field k)).map Prod.fst := by
  induction recs with
  | nil => intro ps qs h k; cases h; simp
  | cons r recs ih =>
    obtain ⟨id, m⟩ := r
    intro ps qs h k
    rw [collectSeeds] at h
    cases hg : m.get field with
    | none =>
      simp only [hg] at h
      rw [ih ps qs h k, List.filter_cons_of_neg (by simp [hasEnc, hg])]
    | some v =>
      simp only [hg] at h
      by_cases hl : (addPart (encodeValue v) id ps).length > 128
      · rw [if_pos hl] at h; cases h
      · rw [if_neg hl] at h
        rw [ih _ qs h k, findPart_addPart]
        by_cases hk : k = encodeValue v
        · rw [if_pos hk, List.filter_cons_of_pos (by simp [hasEnc, hg, hk]), hk]
          simp
        · rw [if_neg hk, List.filter_cons_of_neg (by simp only [hasEnc, hg, decide_eq_true_eq]; exact fun e => hk e.symm)]

theorem metaOf_eq {recs : List (Nat × MetaMap)} (hn : (recs.map Prod.fst).Nodup) {id : Nat} {m : MetaMap}
    (h : (id, m) ∈ recs) : metaOf recs id = some m := by
  induction recs with
  | nil => cases h
  | cons r recs ih =>
    obtain ⟨i, m'⟩ := r
    rw [List.map_cons, List.nodup_cons] at hn
    rw [metaOf]
    rcases List.mem_cons.mp h with h | h
    · cases h; rw [if_pos rfl]
    · have : i ≠ id := by
        rintro rfl
        exact hn.1 (List.mem_map.mpr ⟨_, h, rfl⟩)
      rw [if_neg this]
      exact ih hn.2 h

end Alaya.MatView
