import Verif.Spec.PyFilterMeaning
import Verif.Props.C58

/-! C51: the filter built from a Python dict against the conjunction of its entries. -/
namespace Alaya.PyFilter
open Spec

theorem evalSubs_append (m : MetaMap) : ∀ a b : List Filter, Filter.evalSubs m (a ++ b) = Filter.evalSubs m a ++ Filter.evalSubs m b
  | [], _ => rfl
  | f :: a, b => by simp only [List.cons_append, Filter.evalSubs, evalSubs_append m a b]

theorem noNaNs_append : ∀ a b : List Filter, NoNaNs (a ++ b) = (NoNaNs a && NoNaNs b)
  | [], _ => rfl
  | f :: a, b => by simp only [List.cons_append, NoNaNs, noNaNs_append a b, Bool.and_assoc]

/-- No NaN among the comparison values. -/
def CondsNum (cs : List FilterCond) : Prop := ∀ c ∈ cs, Num c.value

theorem noNaN_mk {op : LogicOp} {cs : List FilterCond} {fs : List Filter} : NoNaN (.mk op cs fs) = true ↔ CondsNum cs ∧ NoNaNs fs = true := by
  simp only [NoNaN, Bool.and_eq_true]
  refine and_congr_left (fun _ => ⟨num_of_all, ?_⟩)
  intro h
  rw [List.all_eq_true]
  intro c hc
  have := h c hc
  cases hv : c.value with
  | double b => rw [hv] at this; simpa [Num] using this
  | _ => rfl

/-- All parts accept. -/
def All (m : MetaMap) (cs : List FilterCond) (fs : List Filter) : Prop := (∀ c ∈ cs, c.eval m = true) ∧ ∀ r ∈ Filter.evalSubs m fs, r = true

/-- Some part accepts. -/
def Some' (m : MetaMap) (cs : List FilterCond) (fs : List Filter) : Prop := (∃ c ∈ cs, c.eval m = true) ∨ ∃ r ∈ Filter.evalSubs m fs, r = true

theorem all_append {m : MetaMap} {a b : List FilterCond} {f g : List Filter} : All m (a ++ b) (f ++ g) ↔ All m a f ∧ All m b g := by
  unfold All
  rw [evalSubs_append]
  simp only [List.mem_append]
  constructor
  · rintro ⟨h1, h2⟩
    exact ⟨⟨fun c hc => h1 c (Or.inl hc), fun r hr => h2 r (Or.inl hr)⟩, fun c hc => h1 c (Or.inr hc), fun r hr => h2 r (Or.inr hr)⟩
  · rintro ⟨⟨h1, h2⟩, h3, h4⟩
    exact ⟨fun c hc => hc.elim (h1 c) (h3 c), fun r hr => hr.elim (h2 r) (h4 r)⟩

theorem some_append {m : MetaMap} {a b : List FilterCond} {f g : List Filter} : Some' m (a ++ b) (f ++ g) ↔ Some' m a f ∨ Some' m b g := by
  unfold Some'
  rw [evalSubs_append]
  simp only [List.mem_append]
  constructor
  · rintro (⟨c, h1 | h1, h2⟩ | ⟨c, h1 | h1, h2⟩)
    · exact Or.inl (Or.inl ⟨c, h1, h2⟩)
    · exact Or.inr (Or.inl ⟨c, h1, h2⟩)
    · exact Or.inl (Or.inr ⟨c, h1, h2⟩)
    · exact Or.inr (Or.inr ⟨c, h1, h2⟩)
  · rintro ((⟨c, h1, h2⟩ | ⟨c, h1, h2⟩) | ⟨c, h1, h2⟩ | ⟨c, h1, h2⟩)
    · exact Or.inl ⟨c, Or.inl h1, h2⟩
    · exact Or.inr ⟨c, Or.inl h1, h2⟩
    · exact Or.inl ⟨c, Or.inr h1, h2⟩
    · exact Or.inr ⟨c, Or.inr h1, h2⟩

theorem evalSubs_eq_nil {m : MetaMap} {fs : List Filter} : Filter.evalSubs m fs = [] ↔ fs = [] := by
  cases fs <;> simp [Filter.evalSubs]

theorem eval_and {m : MetaMap} {cs : List FilterCond} {fs : List Filter} : (Filter.mk .and cs fs).eval m = true ↔ All m cs fs := by
  simp only [Filter.eval]
  by_cases h : cs.isEmpty && fs.isEmpty
  · rw [if_pos h]
    simp only [Bool.and_eq_true, List.isEmpty_iff] at h
    rw [h.1, h.2]
    simp [All, Filter.evalSubs]
  · rw [if_neg h]
    unfold All combine
    cases hl : List.map (fun c => FilterCond.eval c m) cs ++ Filter.evalSubs m fs with
    | nil =>
      rw [List.append_eq_nil_iff, List.map_eq_nil_iff, evalSubs_eq_nil] at hl
      simp [hl.1, hl.2] at h
    | cons r rs =>
      simp only
      rw [← hl]
      simp only [List.all_append, List.all_map, Bool.and_eq_true, List.all_eq_true, Function.comp, id]

theorem eval_or {m : MetaMap} {cs : List FilterCond} {fs : List Filter} :
    (Filter.mk .or cs fs).eval m = true ↔ (cs = [] ∧ fs = []) ∨ Some' m cs fs := by
  simp only [Filter.eval]
  by_cases h : cs.isEmpty && fs.isEmpty
  · rw [if_pos h]
    simp only [Bool.and_eq_true, List.isEmpty_iff] at h
    simp [h]
  · rw [if_neg h]
    have hne : ¬ (cs = [] ∧ fs = []) := by
      intro hh; apply h; simp [hh.1, hh.2]
    unfold Some' combine
    cases hl : List.map (fun c => FilterCond.eval c m) cs ++ Filter.evalSubs m fs with
    | nil =>
      rw [List.append_eq_nil_iff, List.map_eq_nil_iff, evalSubs_eq_nil] at hl
      exact absurd hl hne
    | cons r rs =>
      simp only
      rw [← hl]
      simp only [List.any_append, List.any_map, Bool.or_eq_true, List.any_eq_true, Function.comp, id, hne, false_or]

theorem exists_cons {b : Bool} {l : List Bool} : (∃ r ∈ b :: l, r = true) ↔ b = true ∨ ∃ r ∈ l, r = true := by
  simp

/-- All / some of the elements of an `$and` / `$or` list. -/
def SatSubsAll (m : MetaMap) : PyV → Prop
  | .list l => SatAll m l
  | _ => True
def SatSubsSome (m : MetaMap) : PyV → Prop
  | .list l => SatSome m l
  | _ => False

section
variable {m : MetaMap} (hu : (m.map Prod.fst).Nodup) (hn : NoNaNMap m)
include hu hn

theorem op_iff {k op : Bytes} {v : PyV} {c : FilterCond} (h : buildOp k op v = some c) (hv : Num c.value) :
    c.eval m = true ↔ ∃ a, (k, a) ∈ m ∧ OpHolds a op v := by
  rw [cond_holds_iff hu c hn hv]
  unfold buildOp at h
  unfold CondHolds OpHolds
  by_cases hin : op = kIn
  · rw [if_pos hin] at h
    cases v with
    | list l =>
      simp only [Option.map_eq_some_iff] at h
      obtain ⟨vs, h1, h2⟩ := h
      subst h2
      simp [hin, h1]
    | none => cases h
    | val x => cases h
    | dict d => cases h
  · rw [if_neg hin] at h
    cases v with
    | val x =>
      simp only at h
      by_cases h1 : op = kEq
      · rw [if_pos h1] at h; injection h with h; subst h; subst h1; simp [kEq, kGt, kGe, kLt, kLe]
      · rw [if_neg h1] at h
        by_cases h2 : op = kGt
        · rw [if_pos h2] at h; injection h with h; subst h; subst h2; simp [kEq, kGt, kGe, kLt, kLe]
        · rw [if_neg h2] at h
          by_cases h3 : op = kGe
          · rw [if_pos h3] at h; injection h with h; subst h; subst h3; simp [kEq, kGt, kGe, kLt, kLe]
          · rw [if_neg h3] at h
            by_cases h4 : op = kLt
            · rw [if_pos h4] at h; injection h with h; subst h; subst h4; simp [kEq, kGt, kGe, kLt, kLe]
            · rw [if_neg h4] at h
              by_cases h5 : op = kLe
              · rw [if_pos h5] at h; injection h with h; subst h; subst h5; simp [kEq, kGt, kGe, kLt, kLe]
              · rw [if_neg h5] at h; cases h
    | none => cases h
    | list x => cases h
    | dict d => cases h

theorem ops_iff {k : Bytes} : ∀ {d : PyDict} {cs : List FilterCond}, buildOps k d = some cs → CondsNum cs →
    ((∀ c ∈ cs, c.eval m = true) ↔ OpsHold m k d)
  | .nil, cs, h, _ => by
    simp only [buildOps, Option.some.injEq] at h
    subst h; simp [OpsHold]
  | .cons op v d, cs, h, hv => by
    simp only [buildOps] at h
    cases hb : buildOp k op v with
    | none => rw [hb] at h; cases h
    | some c =>
      rw [hb] at h
      simp only [Option.map_eq_some_iff] at h
      obtain ⟨cs', h1, h2⟩ := h
      subst h2
      have ih := ops_iff h1 (fun c hc => hv c (List.mem_cons_of_mem _ hc))
      simp only [OpsHold, List.forall_mem_cons, ih, op_iff hu hn hb (hv c List.mem_cons_self)]

mutual
theorem build_spec : ∀ (v : PyV) {f : Filter}, build v = some f → NoNaN f = true → (Sat m v → f.eval m = true) ∧ (OrAlone v → f.eval m = true → Sat m v)
  | .none, f, h, _ => by
    simp only [build, Option.some.injEq] at h
    subst h
    exact ⟨fun _ => rfl, fun _ _ => by simp [Sat]⟩
  | .val _, f, h, _ => by simp [build] at h
  | .list _, f, h, _ => by simp [build] at h
  | .dict d, f, h, hN => by
    simp only [build] at h
    obtain ⟨op', c2, f2, e, hs⟩ := items_spec d h
    simp only [List.nil_append] at e
    subst e
    rw [noNaN_mk] at hN
    obtain ⟨s1, s2⟩ := hs hN.1 hN.2
    refine ⟨?_, ?_⟩
    · intro hsat
      simp only [Sat] at hsat
      rcases s1 hsat with ⟨e, hh⟩ | ⟨e, hh⟩
      · subst e; exact eval_and.2 hh
      · subst e; exact eval_or.2 (Or.inr hh)
    · intro ho he
      simp only [OrAlone] at ho
      simp only [Sat]
      cases d with
      | nil => simp [SatDict]
      | cons k v d =>
        by_cases hk : k = kOr
        · simp only [OrAloneD, if_pos hk] at ho
          obtain ⟨e1, x, l, e2, hol⟩ := ho
          subst e1; subst hk
          have hka : kOr ≠ kAnd := by decide
          simp only [buildItems, if_neg hka, if_pos] at h
          cases v with
          | list l' =>
            cases hl : buildList l' with
            | none => simp [buildSubs, hl] at h
            | some gs =>
              simp only [buildSubs, hl, Option.some.injEq, Filter.mk.injEq, List.nil_append] at h
              obtain ⟨e3, e4, e5⟩ := h
              subst e3; subst e4; subst e5
              have hls := list_spec l' hl hN.2
              simp only [SatDict, SatEntry, if_neg hka, if_pos, and_true]
              refine (hls.2.2 (by simpa [OrAlone] using hol)).2 ?_
              rcases eval_or.1 he with ⟨-, hh⟩ | hh | hh
              · injection e2 with e2
                subst e2 hh
                simp only [buildList] at hl
                split at hl
                · cases hl
                · split at hl <;> cases hl
              · obtain ⟨c, hc, -⟩ := hh; cases hc
              · exact hh
          | none => cases e2
          | val y => cases e2
          | dict y => cases e2
        · have hno : NoOr (.cons k v d) := by
            simp only [OrAloneD, if_neg hk] at ho
            simp only [NoOr]
            exact ⟨hk, ho.1⟩
          obtain ⟨e, hh⟩ := s2 hno ho
          subst e
          exact hh (eval_and.1 he)
theorem items_spec : ∀ (d : PyDict) {op : LogicOp} {cs : List FilterCond} {fs : List Filter} {f : Filter}, buildItems d op cs fs = some f →
    ∃ op' c2 f2, f = .mk op' (cs ++ c2) (fs ++ f2) ∧ (CondsNum c2 → NoNaNs f2 = true →
      (SatDict m d → (op' = op ∧ All m c2 f2) ∨ (op' = .or ∧ Some' m c2 f2)) ∧
      (NoOr d → OrAloneD d → op' = op ∧ (All m c2 f2 → SatDict m d)))
  | .nil, op, cs, fs, f, h => by
    simp only [buildItems, Option.some.injEq] at h
    refine ⟨op, [], [], by simp [h], fun _ _ => ⟨fun _ => Or.inl ⟨rfl, by simp [All, Filter.evalSubs]⟩, fun _ _ => ⟨rfl, fun _ => by simp [SatDict]⟩⟩⟩
  | .cons k v d, op, cs, fs, f, h => by
    simp only [buildItems] at h
    by_cases hk : k = kAnd
    · rw [if_pos hk] at h
      have hor : k ≠ kOr := by rw [hk]; decide
      cases hs : buildSubs v with
      | none => rw [hs] at h; cases h
      | some gs =>
        rw [hs] at h
        simp only at h
        obtain ⟨op', c2, f2, e, hh⟩ := items_spec d h
        refine ⟨op', c2, gs ++ f2, by rw [e, List.append_assoc], ?_⟩
        intro hc hf
        rw [noNaNs_append, Bool.and_eq_true] at hf
        obtain ⟨i1, i2⟩ := hh hc hf.2
        have hsub := subs_spec v hs hf.1
        have hall : ∀ {a : List FilterCond}, All m c2 f2 → (∀ r ∈ Filter.evalSubs m gs, r = true) → All m c2 (gs ++ f2) := by
          intro _ h1 h2
          have := (all_append (m := m) (a := []) (b := c2) (f := gs) (g := f2)).2 ⟨⟨by simp, h2⟩, h1⟩
          simpa using this
        have hent : SatEntry m k v → ∀ r ∈ Filter.evalSubs m gs, r = true := by
          intro he
          refine hsub.1 ?_
          cases v <;> simp_all [SatEntry, SatSubsAll]
        refine ⟨?_, ?_⟩
        · intro hsat
          simp only [SatDict] at hsat
          rcases i1 hsat.2 with ⟨e, hh⟩ | ⟨e, hh⟩
          · exact Or.inl ⟨e, hall (a := []) hh (hent hsat.1)⟩
          · refine Or.inr ⟨e, ?_⟩
            have := (some_append (m := m) (a := []) (b := c2) (f := gs) (g := f2)).2 (Or.inr hh)
            simpa using this
        · intro hno ho
          simp only [NoOr] at hno
          simp only [OrAloneD, if_neg hor] at ho
          obtain ⟨e, hh⟩ := i2 hno.2 ho.2.2
          refine ⟨e, ?_⟩
          intro ha
          have := (all_append (m := m) (a := []) (b := c2) (f := gs) (g := f2)).1 (by simpa using ha)
          simp only [SatDict]
          refine ⟨?_, hh this.2⟩
          have h3 := hsub.2.2 ho.2.1 this.1.2
          cases v with
          | none => simp [buildSubs] at hs
          | val x => simp [SatEntry, hk]
          | list l => simpa [SatEntry, hk, SatSubsAll] using h3
          | dict x => simp [SatEntry, hk]
    · rw [if_neg hk] at h
      by_cases hor : k = kOr
      · rw [if_pos hor] at h
        cases hs : buildSubs v with
        | none => rw [hs] at h; cases h
        | some gs =>
          rw [hs] at h
          simp only at h
          obtain ⟨op', c2, f2, e, hh⟩ := items_spec d h
          refine ⟨op', c2, gs ++ f2, by rw [e, List.append_assoc], ?_⟩
          intro hc hf
          rw [noNaNs_append, Bool.and_eq_true] at hf
          obtain ⟨i1, -⟩ := hh hc hf.2
          have hsub := subs_spec v hs hf.1
          refine ⟨?_, fun hno => by simp only [NoOr] at hno; exact absurd hor hno.1⟩
          intro hsat
          simp only [SatDict] at hsat
          right
          have hop : op' = .or := by
            rcases i1 hsat.2 with ⟨e, -⟩ | ⟨e, -⟩ <;> exact e
          refine ⟨hop, ?_⟩
          have hsome : ∃ r ∈ Filter.evalSubs m gs, r = true := by
            refine hsub.2.1 ?_
            have := hsat.1
            cases v <;> simp_all [SatEntry, SatSubsSome]
          have := (some_append (m := m) (a := []) (b := c2) (f := gs) (g := f2)).2 (Or.inl (Or.inr hsome))
          simpa using this
      · rw [if_neg hor] at h
        cases v with
        | none => cases h
        | list l => cases h
        | val x =>
          simp only at h
          obtain ⟨op', c2, f2, e, hh⟩ := items_spec d h
          refine ⟨op', _ :: c2, f2, by rw [e, List.append_assoc]; rfl, ?_⟩
          intro hc hf
          obtain ⟨i1, i2⟩ := hh (fun c hcc => hc c (List.mem_cons_of_mem _ hcc)) hf
          have hcond := cond_holds_iff hu ⟨k, .eq, x, []⟩ hn (hc _ List.mem_cons_self)
          have hent : SatEntry m k (.val x) ↔ (FilterCond.eval ⟨k, .eq, x, []⟩ m = true) := by
            rw [hcond]
            simp only [SatEntry, if_neg hk, if_neg hor, CondHolds]
          have hcons : ∀ {c : FilterCond}, All m (c :: c2) f2 ↔ c.eval m = true ∧ All m c2 f2 := by
            intro c
            simp only [All, List.forall_mem_cons, and_assoc]
          refine ⟨?_, ?_⟩
          · intro hsat
            simp only [SatDict] at hsat
            rcases i1 hsat.2 with ⟨e, hh⟩ | ⟨e, hh⟩
            · exact Or.inl ⟨e, hcons.2 ⟨hent.1 hsat.1, hh⟩⟩
            · exact Or.inr ⟨e, Or.inl ⟨_, List.mem_cons_self, hent.1 hsat.1⟩⟩
          · intro hno ho
            simp only [NoOr] at hno
            simp only [OrAloneD, if_neg hor] at ho
            obtain ⟨e, hh⟩ := i2 hno.2 ho.2.2
            refine ⟨e, fun ha => ?_⟩
            simp only [SatDict]
            exact ⟨hent.2 (hcons.1 ha).1, hh (hcons.1 ha).2⟩
        | dict ops =>
          simp only at h
          cases hb : buildOps k ops with
          | none => rw [hb] at h; cases h
          | some c1 =>
            rw [hb] at h
            simp only at h
            obtain ⟨op', c2, f2, e, hh⟩ := items_spec d h
            refine ⟨op', c1 ++ c2, f2, by rw [e, List.append_assoc], ?_⟩
            intro hc hf
            obtain ⟨i1, i2⟩ := hh (fun c hcc => hc c (List.mem_append_right _ hcc)) hf
            have hcond := ops_iff hu hn hb (fun c hcc => hc c (List.mem_append_left _ hcc))
            have hent : SatEntry m k (.dict ops) ↔ ∀ c ∈ c1, c.eval m = true := by
              rw [hcond]
              simp only [SatEntry, if_neg hk, if_neg hor]
            have hcons : All m (c1 ++ c2) f2 ↔ (∀ c ∈ c1, c.eval m = true) ∧ All m c2 f2 := by
              have := all_append (m := m) (a := c1) (b := c2) (f := []) (g := f2)
              simpa [All, Filter.evalSubs] using this
            refine ⟨?_, ?_⟩
            · intro hsat
              simp only [SatDict] at hsat
              rcases i1 hsat.2 with ⟨e, hh⟩ | ⟨e, hh⟩
              · exact Or.inl ⟨e, hcons.2 ⟨hent.1 hsat.1, hh⟩⟩
              · refine Or.inr ⟨e, ?_⟩
                have := (some_append (m := m) (a := c1) (b := c2) (f := []) (g := f2)).2 (Or.inr hh)
                simpa using this
            · intro hno ho
              simp only [NoOr] at hno
              simp only [OrAloneD, if_neg hor] at ho
              obtain ⟨e, hh⟩ := i2 hno.2 ho.2.2
              refine ⟨e, fun ha => ?_⟩
              simp only [SatDict]
              exact ⟨hent.2 (hcons.1 ha).1, hh (hcons.1 ha).2⟩
theorem subs_spec : ∀ (v : PyV) {gs : List Filter}, buildSubs v = some gs → NoNaNs gs = true →
    (SatSubsAll m v → ∀ r ∈ Filter.evalSubs m gs, r = true) ∧ (SatSubsSome m v → ∃ r ∈ Filter.evalSubs m gs, r = true) ∧
    (OrAlone v → (∀ r ∈ Filter.evalSubs m gs, r = true) → SatSubsAll m v)
  | .none, gs, h, _ => by simp [buildSubs] at h
  | .list l, gs, h, hN => by
    simp only [buildSubs] at h
    have := list_spec l h hN
    simp only [SatSubsAll, SatSubsSome, OrAlone]
    exact ⟨this.1, this.2.1, fun ho => (this.2.2 ho).1⟩
  | .val v, gs, h, _ => by
    have : gs = [] := by
      unfold buildSubs at h
      split at h
      · rename_i hh; cases hh
      · injection h with h; exact h.symm
      · injection h with h; exact h.symm
      · cases h
    subst this
    simp [Filter.evalSubs, SatSubsAll, SatSubsSome]
  | .dict d, gs, h, _ => by
    have : gs = [] := by
      cases d with
      | nil => simp only [buildSubs, Option.some.injEq] at h; exact h.symm
      | cons k v d => simp [buildSubs] at h
    subst this
    simp [Filter.evalSubs, SatSubsAll, SatSubsSome]
theorem list_spec : ∀ (l : PyList) {gs : List Filter}, buildList l = some gs → NoNaNs gs = true →
    (SatAll m l → ∀ r ∈ Filter.evalSubs m gs, r = true) ∧ (SatSome m l → ∃ r ∈ Filter.evalSubs m gs, r = true) ∧
    (OrAloneL l → ((∀ r ∈ Filter.evalSubs m gs, r = true) → SatAll m l) ∧ ((∃ r ∈ Filter.evalSubs m gs, r = true) → SatSome m l))
  | .nil, gs, h, _ => by
    simp only [buildList, Option.some.injEq] at h
    subst h
    simp [Filter.evalSubs, SatAll, SatSome]
  | .cons v l, gs, h, hN => by
    simp only [buildList] at h
    cases hb : build v with
    | none => rw [hb] at h; cases h
    | some f =>
      rw [hb] at h
      simp only at h
      cases hl : buildList l with
      | none => rw [hl] at h; cases h
      | some fs =>
        rw [hl] at h
        simp only [Option.some.injEq] at h
        subst h
        simp only [NoNaNs, Bool.and_eq_true] at hN
        have h1 := build_spec v hb hN.1
        have h2 := list_spec l hl hN.2
        simp only [Filter.evalSubs, SatAll, SatSome, OrAloneL, List.forall_mem_cons, exists_cons]
        refine ⟨fun hh => ⟨h1.1 hh.1, h2.1 hh.2⟩, fun hh => hh.elim (fun x => Or.inl (h1.1 x)) (fun x => Or.inr (h2.2.1 x)), ?_⟩
        intro ho
        refine ⟨fun hh => ⟨h1.2 ho.1 hh.1, (h2.2.2 ho.2).1 hh.2⟩, fun hh => hh.elim (fun x => Or.inl (h1.2 ho.1 x)) (fun x => Or.inr ((h2.2.2 ho.2).2 x))⟩
end
end

/-- No record that satisfies the dict is rejected, for every dict.  Records and comparison values without NaN (see C58). -/
theorem C51_complete {m : MetaMap} (hu : (m.map Prod.fst).Nodup) (hn : NoNaNMap m) {v : PyV} {f : Filter} (h : build v = some f)
    (hv : NoNaN f = true) (hs : Sat m v) : f.eval m = true := (build_spec hu hn v h hv).1 hs

/-- The full property is `∀ v f m, build v = some f → (f.eval m ↔ Sat m v)`.  Missing: dicts with an `$or` next to other entries, or with an
empty `$or`; for these it is false (the two theorems below). -/
theorem C51_exact_partial {m : MetaMap} (hu : (m.map Prod.fst).Nodup) (hn : NoNaNMap m) {v : PyV} {f : Filter} (h : build v = some f)
    (hv : NoNaN f = true) (ho : OrAlone v) : f.eval m = true ↔ Sat m v :=
  ⟨(build_spec hu hn v h hv).2 ho, (build_spec hu hn v h hv).1⟩

/-- `{"c": 3, "$or": [{"a": 1}, {"b": 2}]}`. -/
def orBeside : PyV :=
  .dict (.cons [99] (.val (.int 3)) (.cons kOr (.list (.cons (.dict (.cons [97] (.val (.int 1)) .nil)) (.cons (.dict (.cons [98] (.val (.int 2)) .nil)) .nil))) .nil))

/-- An `$or` turns the whole dict into a disjunction: the record `{"c": 3}` is accepted although neither `a` nor `b` is there. -/
theorem C51_or_beside_refuted : ∃ f, build orBeside = some f ∧ f.eval [([99], .int 3)] = true ∧ ¬ Sat [([99], .int 3)] orBeside := by
  refine ⟨.mk .or [⟨[99], .eq, .int 3, []⟩] [.mk .and [⟨[97], .eq, .int 1, []⟩] [], .mk .and [⟨[98], .eq, .int 2, []⟩] []], by rfl, by rfl, ?_⟩
  simp [orBeside, Sat, SatDict, SatEntry, SatSome, kAnd, kOr]

/-- An empty `$or` accepts every record. -/
theorem C51_empty_or_refuted (m : MetaMap) : ∃ f, build (.dict (.cons kOr (.list .nil) .nil)) = some f ∧ f.eval m = true ∧
    ¬ Sat m (.dict (.cons kOr (.list .nil) .nil)) := by
  refine ⟨.mk .or [] [], by rfl, by rfl, ?_⟩
  simp [Sat, SatDict, SatEntry, SatSome, kAnd, kOr]

/-- A dict of plain fields never raises, and means equality of all of them (also in the presence of NaN). -/
theorem C51_fields_build (l : List (Bytes × MetaValue)) (hl : ∀ e ∈ l, e.1 ≠ kAnd ∧ e.1 ≠ kOr) :
    ∃ f, build (.dict (l.foldr (fun e d => .cons e.1 (.val e.2) d) .nil)) = some f ∧
      ∀ m : MetaMap, (m.map Prod.fst).Nodup → (f.eval m = true ↔ ∀ e ∈ l, ∃ a, m.get e.1 = some a ∧ a.eqv e.2 = true) := by
  have key : ∀ (l : List (Bytes × MetaValue)), (∀ e ∈ l, e.1 ≠ kAnd ∧ e.1 ≠ kOr) → ∀ cs : List FilterCond,
      buildItems (l.foldr (fun e d => PyDict.cons e.1 (.val e.2) d) .nil) .and cs [] = some (.mk .and (cs ++ l.map (fun e => ⟨e.1, .eq, e.2, []⟩)) []) := by
    intro l
    induction l with
    | nil => intro _ cs; simp [buildItems]
    | cons e l ih =>
      intro hh cs
      have he := hh e List.mem_cons_self
      simp only [List.foldr_cons, buildItems, if_neg he.1, if_neg he.2]
      rw [ih (fun x hx => hh x (List.mem_cons_of_mem _ hx)) (cs ++ [(⟨e.1, .eq, e.2, []⟩ : FilterCond)])]
      simp
  refine ⟨.mk .and (l.map (fun e => ⟨e.1, .eq, e.2, []⟩)) [], ?_, ?_⟩
  · simp only [build]
    rw [key l hl []]
    simp
  · intro m _
    rw [eval_and]
    unfold All
    simp only [Filter.evalSubs, List.mem_map, forall_exists_index, and_imp, forall_apply_eq_imp_iff₂, List.not_mem_nil, false_implies, implies_true, and_true]
    refine forall_congr' (fun e => forall_congr' (fun _ => ?_))
    unfold FilterCond.eval
    cases hg : m.get e.1 with
    | none => simp
    | some a => simp

/-- Non-vacuous: `{"$or": [{"a": {"$gt": 1}}, {"b": 2}]}` inside `$and` is well formed, builds, and is satisfied by `{"b": 2}`. -/
example : ∃ v f, build v = some f ∧ OrAlone v ∧ NoNaN f = true ∧ Sat [([98], .int 2)] v ∧ f.eval [([98], .int 2)] = true ∧ f.eval [([98], .int 3)] = false := by
  refine ⟨.dict (.cons kAnd (.list (.cons (.dict (.cons kOr (.list (.cons (.dict (.cons [97] (.dict (.cons kGt (.val (.int 1)) .nil)) .nil))
    (.cons (.dict (.cons [98] (.val (.int 2)) .nil)) .nil))) .nil)) .nil)) .nil),
    .mk .and [] [.mk .or [] [.mk .and [⟨[97], .gt, .int 1, []⟩] [], .mk .and [⟨[98], .eq, .int 2, []⟩] []]], by rfl, ?_, by rfl, ?_, by rfl, by rfl⟩
  · simp [OrAlone, OrAloneD, OrAloneL, NoOr, kAnd, kOr, kGt]
  · simp [Sat, SatDict, SatEntry, SatSome, SatAll, kAnd, kOr, VEq]

end Alaya.PyFilter
