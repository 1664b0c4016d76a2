import Verif.Lemmas.MatView

/-! C50: materialised-view partition selection is sound and complete for the filter. -/
namespace Alaya.MatView
open Spec

/-- Every record accepted by an eligible filter has its partition field among the selected values; a covered filter
accepts exactly those records. -/
theorem C50_selection (f : Filter) (field : Bytes) (vs : List MetaValue) (covered : Bool)
    (h : analyze f field = some (vs, covered)) (m : MetaMap) :
    (f.eval m = true → ∃ x, m.get field = some x ∧ ∃ v ∈ vs, x.eqv v = true) ∧
    (covered = true → (f.eval m = true ↔ ∃ x, m.get field = some x ∧ ∃ v ∈ vs, x.eqv v = true)) := by
  unfold analyze at h
  by_cases he : (isEmpty f || field.isEmpty) = true
  · rw [if_pos he] at h; cases h
  rw [if_neg he] at h
  cases hc : collectConj f with
  | none => simp only [hc] at h; cases h
  | some cs =>
    simp only [hc] at h
    cases hl : analyzeLoop field cs none true with
    | none => rw [hl] at h; cases h
    | some r =>
      obtain ⟨ro, cov⟩ := r
      rw [hl] at h
      cases ro with
      | none => cases h
      | some v =>
        simp only [Option.some.injEq, Prod.mk.injEq] at h
        obtain ⟨rfl, rfl⟩ := h
        obtain ⟨h1, h2, _, h4⟩ := analyzeLoop_spec field m cs none true (some v) cov hl
        have hev := collectConj_eval m f cs hc
        have fwd : f.eval m = true → ∃ x, m.get field = some x ∧ ∃ u ∈ v, x.eqv u = true := by
          intro hf
          rw [hev, List.all_eq_true] at hf
          -- some condition is on the field
          have hex : ∃ c ∈ cs, c.field = field := by
            false_or_by_contra
            rename_i hno
            have hno' : ∀ c ∈ cs, c.field ≠ field := fun c hc he => hno ⟨c, hc, he⟩
            have : ∀ (l : List FilterCond) (b : Bool), (∀ c ∈ l, c.field ≠ field) →
                ∃ b', analyzeLoop field l none b = some (none, b') := by
              intro l
              induction l with
              | nil => intro b _; exact ⟨b, rfl⟩
              | cons c l ih =>
                intro b hl
                rw [analyzeLoop, if_pos (hl c List.mem_cons_self)]
                exact ih _ (fun c' hc' => hl c' (List.mem_cons_of_mem _ hc'))
            obtain ⟨b', hb⟩ := this cs true hno'
            rw [hb] at hl; cases hl
          obtain ⟨c, hcm, hcf⟩ := hex
          have hce := hf c hcm
          unfold FilterCond.eval at hce
          cases hg : m.get c.field with
          | none => rw [hg] at hce; cases hce
          | some x =>
            rw [hcf] at hg
            exact ⟨x, hg, (h4 v rfl x).1 hf hg (by intro a ha; cases ha)⟩
        refine ⟨fwd, fun hcov => ⟨fwd, ?_⟩⟩
        rintro ⟨x, hg, hin⟩
        obtain ⟨_, g2⟩ := h2 hcov
        rw [hev, List.all_eq_true]
        intro c hcm
        exact ((h4 v rfl x).2 hg hin).2 c hcm (g2 c hcm)

/-- The values are pairwise different. -/
theorem C50_values_distinct (f : Filter) (field : Bytes) (vs : List MetaValue) (covered : Bool)
    (h : analyze f field = some (vs, covered)) : vs.Pairwise fun a b => ¬ a.eqv b = true := by
  unfold analyze at h
  by_cases he : (isEmpty f || field.isEmpty) = true
  · rw [if_pos he] at h; cases h
  rw [if_neg he] at h
  cases hc : collectConj f with
  | none => simp only [hc] at h; cases h
  | some cs =>
    simp only [hc] at h
    cases hl : analyzeLoop field cs none true with
    | none => rw [hl] at h; cases h
    | some r =>
      obtain ⟨ro, cov⟩ := r
      rw [hl] at h
      cases ro with
      | none => cases h
      | some v =>
        simp only [Option.some.injEq, Prod.mk.injEq] at h
        obtain ⟨rfl, rfl⟩ := h
        exact apart_analyzeLoop field cs none true _ _ (by intro a ha; cases ha) hl

mutual
/-- No comparison value of the tree is NaN or negative zero. -/
def PlainFilter : Filter → Prop
  | .mk _ conds subs => (∀ c ∈ conds, Plain c.value ∧ ∀ x ∈ c.values, Plain x) ∧ PlainFilters subs
def PlainFilters : List Filter → Prop
  | [] => True
  | f :: fs => PlainFilter f ∧ PlainFilters fs
end

mutual
theorem plain_conj : (f : Filter) → PlainFilter f → ∀ cs, collectConj f = some cs →
    ∀ c ∈ cs, Plain c.value ∧ ∀ x ∈ c.values, Plain x
  | .mk op conds subs => by
    intro hp cs h
    unfold PlainFilter at hp
    unfold collectConj at h
    by_cases he : (conds.isEmpty && subs.isEmpty) = true
    · rw [if_pos he] at h; cases h; intro c hc; cases hc
    · rw [if_neg he] at h
      by_cases ho : op ≠ .and
      · rw [if_pos ho] at h; cases h
      · rw [if_neg ho] at h
        cases hs : collectSubs subs with
        | none => rw [hs] at h; cases h
        | some ss =>
          rw [hs] at h
          cases h
          intro c hc
          rcases List.mem_append.mp hc with hc | hc
          · exact hp.1 c hc
          · exact plain_subs subs hp.2 ss hs c hc
theorem plain_subs : (fs : List Filter) → PlainFilters fs → ∀ cs, collectSubs fs = some cs →
    ∀ c ∈ cs, Plain c.value ∧ ∀ x ∈ c.values, Plain x
  | [] => by intro _ cs h; cases h; intro c hc; cases hc
  | f :: fs => by
    intro hp cs h
    unfold PlainFilters at hp
    unfold collectSubs at h
    cases hf : collectConj f with
    | none => rw [hf] at h; cases h
    | some c1 =>
      rw [hf] at h
      cases hs : collectSubs fs with
      | none => simp only [hs] at h; cases h
      | some c2 =>
        simp only [hs] at h
        cases h
        intro c hc
        rcases List.mem_append.mp hc with hc | hc
        · exact plain_conj f hp.1 c1 hf c hc
        · exact plain_subs fs hp.2 c2 hs c hc
end

theorem plain_values {f : Filter} (hp : PlainFilter f) {field : Bytes} {vs : List MetaValue} {covered : Bool}
    (h : analyze f field = some (vs, covered)) : ∀ v ∈ vs, Plain v := by
  unfold analyze at h
  by_cases he : (isEmpty f || field.isEmpty) = true
  · rw [if_pos he] at h; cases h
  rw [if_neg he] at h
  cases hc : collectConj f with
  | none => simp only [hc] at h; cases h
  | some cs =>
    simp only [hc] at h
    cases hl : analyzeLoop field cs none true with
    | none => rw [hl] at h; cases h
    | some r =>
      obtain ⟨ro, cov⟩ := r
      rw [hl] at h
      cases ro with
      | none => cases h
      | some v =>
        simp only [Option.some.injEq, Prod.mk.injEq] at h
        obtain ⟨rfl, rfl⟩ := h
        exact mem_analyzeLoop field Plain cs (plain_conj f hp cs hc) none true _ _ (by intro a ha; cases ha) hl

/-- The partition-level statement: the candidates taken from the selected partitions are exactly the ids of the records
that the filter accepts, each once. -/
def CandidatesExact (f : Filter) (field : Bytes) (recs : List (Nat × MetaMap)) : Prop :=
  ∀ ps ids, rebuild field recs = some ps → candidates f field ps recs = some ids →
    ids.Nodup ∧ ∀ id, id ∈ ids ↔ ∃ m, (id, m) ∈ recs ∧ f.eval m = true

/-- Partial (missing: NaN and negative zero, refuted below): the partitions that the view searches contain exactly the
records that the filter accepts. -/
theorem C50_partitions_partial (f : Filter) (field : Bytes) (recs : List (Nat × MetaMap))
    (hn : (recs.map Prod.fst).Nodup) (hf : PlainFilter f)
    (hr : ∀ id m v, (id, m) ∈ recs → m.get field = some v → Plain v) : CandidatesExact f field recs := by
  intro ps ids hb hc
  unfold candidates at hc
  cases ha : analyze f field with
  | none => rw [ha] at hc; cases hc
  | some r =>
    obtain ⟨vs, cov⟩ := r
    rw [ha] at hc
    simp only [Option.some.injEq] at hc
    have hsel := C50_selection f field vs cov ha
    have hpl := plain_values hf ha
    have hap := C50_values_distinct f field vs cov ha
    have hparts : ∀ k, (findPart k ps).getD [] =
        (recs.filter (hasEnc field k)).map Prod.fst := by
      intro k
      unfold rebuild at hb
      cases hs : collectSeeds field recs [] with
      | none => rw [hs] at hb; cases hb
      | some qs =>
        simp only [hs] at hb
        by_cases hl : qs.length ≤ 1
        · rw [if_pos hl] at hb; cases hb
        · rw [if_neg hl] at hb
          cases hb
          simpa [findPart] using findPart_seeds field recs [] ps hs k
    -- the contribution of one value
    obtain ⟨part, hpart⟩ : ∃ part : MetaValue → List Nat, part = fun v => match findPart (encodeValue v) ps with
      | none => []
      | some ids => residual f recs cov ids := ⟨_, rfl⟩
    replace hc : vs.flatMap part = ids := by rw [hpart]; exact hc
    have hmem : ∀ v ∈ vs, ∀ id, id ∈ part v ↔ ∃ m, (id, m) ∈ recs ∧ f.eval m = true ∧ m.get field = some v := by
      intro v hv id
      have hp := hparts (encodeValue v)
      have hin : ∀ l, findPart (encodeValue v) ps = some l → (id ∈ l ↔ ∃ m, (id, m) ∈ recs ∧ m.get field = some v) := by
        intro l hl
        rw [hl] at hp
        rw [show l = _ from hp, List.mem_map]
        constructor
        · rintro ⟨⟨i, m⟩, h1, rfl⟩
          rw [List.mem_filter] at h1
          refine ⟨m, h1.1, ?_⟩
          cases hg : m.get field with
          | none => simp [hasEnc, hg] at h1
          | some x =>
            simp only [hasEnc, hg, decide_eq_true_eq] at h1
            rw [encodeValue_inj h1.2]
        · rintro ⟨m, h1, h2⟩
          exact ⟨(id, m), List.mem_filter.mpr ⟨h1, by simp [hasEnc, h2]⟩, rfl⟩
      cases hl : findPart (encodeValue v) ps with
      | none =>
        have : part v = [] := by rw [hpart]; simp only [hl]
        rw [this]
        rw [hl] at hp
        constructor
        · intro h; cases h
        · rintro ⟨m, h1, _, h2⟩
          have : (id : Nat) ∈ ([] : List Nat) := by
            rw [show ([] : List Nat) = _ from hp]
            exact List.mem_map.mpr ⟨(id, m), List.mem_filter.mpr ⟨h1, by simp [hasEnc, h2]⟩, rfl⟩
          cases this
      | some l =>
        have hpv : part v = residual f recs cov l := by rw [hpart]; simp only [hl]
        rw [hpv]
        unfold residual
        cases cov with
        | true =>
          rw [if_pos rfl, hin l hl]
          constructor
          · rintro ⟨m, h1, h2⟩
            have hvp : v.eqv v = true := (eqv_plain (hpl v hv) (hpl v hv)).mpr rfl
            exact ⟨m, h1, ((hsel m).2 rfl).mpr ⟨v, h2, v, hv, hvp⟩, h2⟩
          · rintro ⟨m, h1, _, h2⟩; exact ⟨m, h1, h2⟩
        | false =>
          rw [if_neg (by simp), List.mem_filter, hin l hl]
          constructor
          · rintro ⟨⟨m, h1, h2⟩, h3⟩
            rw [metaOf_eq hn h1] at h3
            exact ⟨m, h1, h3, h2⟩
          · rintro ⟨m, h1, h2, h3⟩
            refine ⟨⟨m, h1, h3⟩, ?_⟩
            rw [metaOf_eq hn h1]; exact h2
    have hnd : ∀ v, (part v).Nodup := by
      intro v
      have hp := hparts (encodeValue v)
      cases hl : findPart (encodeValue v) ps with
      | none =>
        have : part v = [] := by rw [hpart]; simp only [hl]
        rw [this]; exact List.nodup_nil
      | some l =>
        rw [hl] at hp
        have hlnd : l.Nodup := by
          rw [show l = _ from hp]
          exact (List.filter_sublist.map Prod.fst).nodup hn
        have : part v = residual f recs cov l := by rw [hpart]; simp only [hl]
        rw [this]
        unfold residual
        split
        · exact hlnd
        · exact hlnd.filter _
    have uniqueMeta : ∀ id m m', (id, m) ∈ recs → (id, m') ∈ recs → m = m' := by
      intro id m m' h1 h2
      have a := metaOf_eq hn h1
      rw [metaOf_eq hn h2] at a
      exact (Option.some.inj a).symm
    subst hc
    constructor
    · -- no repetition
      have : ∀ l : List MetaValue, (∀ v ∈ l, v ∈ vs) → (l.Pairwise fun a b => ¬ a.eqv b = true) → (l.flatMap part).Nodup := by
        intro l
        induction l with
        | nil => intro _ _; simp
        | cons v l ih =>
          intro hl hpw
          rw [List.flatMap_cons, List.nodup_append]
          rw [List.pairwise_cons] at hpw
          refine ⟨hnd v, ih (fun u hu => hl u (List.mem_cons_of_mem _ hu)) hpw.2, ?_⟩
          intro a ha b hb heq
          subst heq
          obtain ⟨u, hu1, hu2⟩ := List.mem_flatMap.mp hb
          obtain ⟨m, h1, _, h2⟩ := (hmem v (hl v List.mem_cons_self) a).mp ha
          obtain ⟨m', h1', _, h2'⟩ := (hmem u (hl u (List.mem_cons_of_mem _ hu1)) a).mp hu2
          have := uniqueMeta a m m' h1 h1'
          subst this
          rw [h2] at h2'
          cases h2'
          exact hpw.1 v hu1 ((eqv_plain (hpl v (hl v List.mem_cons_self)) (hpl v (hl v List.mem_cons_self))).mpr rfl)
      exact this vs (fun _ h => h) hap
    · intro id
      rw [List.mem_flatMap]
      constructor
      · rintro ⟨v, hv, hid⟩
        obtain ⟨m, h1, h2, _⟩ := (hmem v hv id).mp hid
        exact ⟨m, h1, h2⟩
      · rintro ⟨m, h1, h2⟩
        obtain ⟨x, hx, v, hv, he⟩ := (hsel m).1 h2
        have : x = v := (eqv_plain (hr id m x h1 hx) (hpl v hv)).mp he
        subst this
        exact ⟨x, hv, (hmem x hv id).mpr ⟨m, h1, h2, hx⟩⟩

def recA : MetaMap := [(str "c", .string (str "red")), (str "n", .int 1)]
def recB : MetaMap := [(str "c", .string (str "blue")), (str "n", .int 2)]
def recC : MetaMap := [(str "c", .string (str "red")), (str "n", .int 3)]
def recD : MetaMap := [(str "n", .int 4)]
def recsEx : List (Nat × MetaMap) := [(0, recA), (1, recB), (2, recC), (3, recD)]
/-- `c in {green, red} and (c = red and n >= 2)`. -/
def filterEx : Filter := .mk .and [⟨str "c", .inSet, .bool false, [.string (str "green"), .string (str "red")]⟩]
  [.mk .and [⟨str "c", .eq, .string (str "red"), []⟩, ⟨str "n", .ge, .int 2, []⟩] []]

example : analyze filterEx (str "c") = some ([.string (str "red")], false) ∧
    (rebuild (str "c") recsEx).isSome ∧
    (rebuild (str "c") recsEx).bind (fun ps => candidates filterEx (str "c") ps recsEx) = some [2] := by decide

example : (recsEx.map Prod.fst).Nodup ∧ PlainFilter filterEx ∧
    ∀ id m v, (id, m) ∈ recsEx → m.get (str "c") = some v → Plain v := by
  refine ⟨by decide, ?_, ?_⟩
  · simp [filterEx, PlainFilter, PlainFilters, Plain]
  · intro id m v h1 h2
    simp only [recsEx, List.mem_cons, Prod.mk.injEq, List.not_mem_nil, or_false] at h1
    rcases h1 with ⟨_, rfl⟩ | ⟨_, rfl⟩ | ⟨_, rfl⟩ | ⟨_, rfl⟩ <;> simp [recA, recB, recC, recD, MetaMap.get, str] at h2 <;>
      subst h2 <;> trivial

def posZero : MetaValue := .double 0#64
def negZero : MetaValue := .double 0x8000000000000000#64
def nanVal : MetaValue := .double 0x7FF8000000000000#64
def fieldX : Bytes := str "x"
def condEq (v : MetaValue) : Filter := .mk .and [⟨fieldX, .eq, v, []⟩] []

set_option exponentiation.threshold 2100 in
set_option maxRecDepth 100000 in
/-- The unchanged code misses records: the filter `x = 0.0` accepts a record with `-0.0`, which lies in another
partition. -/
theorem C50_negative_zero_refuted : ¬ ∀ f field recs, (recs.map Prod.fst).Nodup → CandidatesExact f field recs := by
  intro h
  have := h (condEq posZero) fieldX [(0, [(fieldX, posZero)]), (1, [(fieldX, negZero)])] (by decide)
    [(encodeValue posZero, [0]), (encodeValue negZero, [1])] [0] (by decide) (by decide)
  have := (this.2 1).mpr ⟨[(fieldX, negZero)], by simp, by decide +kernel⟩
  exact absurd this (by decide)

set_option exponentiation.threshold 2100 in
set_option maxRecDepth 100000 in
/-- It returns records that the filter rejects: `x = NaN` is covered by the partition of the NaN records, whereas
evaluating the filter rejects them. -/
theorem C50_nan_refuted : ¬ ∀ f field recs, (recs.map Prod.fst).Nodup → CandidatesExact f field recs := by
  intro h
  have := h (condEq nanVal) fieldX [(0, [(fieldX, posZero)]), (1, [(fieldX, nanVal)])] (by decide)
    [(encodeValue posZero, [0]), (encodeValue nanVal, [1])] [1] (by decide) (by decide)
  obtain ⟨m, hm, he⟩ := (this.2 1).mp (by simp)
  simp only [List.mem_cons, Prod.mk.injEq, Nat.succ_ne_zero, false_and, List.not_mem_nil, or_false, false_or, true_and] at hm
  subst hm
  exact absurd he (by decide +kernel)

/-- A repeated NaN in an IN list is not recognised as a repetition, so its partition is searched twice and its records
are returned twice. -/
theorem C50_nan_twice_refuted :
    candidates (.mk .and [⟨fieldX, .inSet, .bool false, [nanVal, nanVal]⟩] []) fieldX
      [(encodeValue posZero, [0]), (encodeValue nanVal, [1])]
      [(0, [(fieldX, posZero)]), (1, [(fieldX, nanVal)])] = some [1, 1] := by decide +kernel

end Alaya.MatView
