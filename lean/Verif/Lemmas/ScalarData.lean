import Verif.Model.ScalarData
import Verif.Lemmas.Bytes
import Verif.Lemmas.ListAux

namespace Alaya

/-! ### maps -/

theorem MetaMap.get_set (m : MetaMap) (k : Bytes) (v : MetaValue) (k' : Bytes) :
    (m.set k v).get k' = if k = k' then some v else m.get k' := by
  induction m with
  | nil => simp [MetaMap.set, MetaMap.get]
  | cons e rest ih =>
    obtain ⟨a, b⟩ := e
    simp only [MetaMap.set]
    split
    · rename_i h; subst h
      simp only [MetaMap.get]
      split <;> rfl
    · rename_i h
      simp only [MetaMap.get, ih]
      by_cases h1 : a = k'
      · subst h1; simp [Ne.symm h]
      · simp [h1]

theorem MetaMap.set_fresh (m : MetaMap) (k : Bytes) (v : MetaValue) (h : k ∉ m.map Prod.fst) :
    m.set k v = m ++ [(k, v)] := by
  induction m with
  | nil => rfl
  | cons e rest ih =>
    obtain ⟨a, b⟩ := e
    simp only [List.map_cons, List.mem_cons, not_or] at h
    simp only [MetaMap.set, if_neg (Ne.symm h.1), List.cons_append, ih h.2]

theorem MetaMap.get_append (m1 m2 : MetaMap) (k : Bytes) :
    MetaMap.get (m1 ++ m2) k = (MetaMap.get m1 k).or (MetaMap.get m2 k) := by
  induction m1 with
  | nil => simp [MetaMap.get]
  | cons e rest ih =>
    obtain ⟨a, b⟩ := e
    simp only [List.cons_append, MetaMap.get]
    split <;> simp_all

theorem MetaMap.get_eq_none_iff (m : MetaMap) (k : Bytes) :
    MetaMap.get m k = none ↔ k ∉ m.map Prod.fst := by
  induction m with
  | nil => simp [MetaMap.get]
  | cons e rest ih =>
    obtain ⟨a, b⟩ := e
    simp only [MetaMap.get, List.map_cons, List.mem_cons, not_or]
    split
    · rename_i h; subst h; simp
    · rename_i h; rw [ih]; simp [Ne.symm h]

theorem MetaMap.get_isSome_iff (m : MetaMap) (k : Bytes) :
    (∃ v, MetaMap.get m k = some v) ↔ k ∈ m.map Prod.fst := by
  have := MetaMap.get_eq_none_iff m k
  cases h : MetaMap.get m k with
  | none =>
    have := this.1 h
    constructor
    · rintro ⟨v, hv⟩; cases hv
    · intro hk; exact absurd hk this
  | some v =>
    constructor
    · intro _
      by_cases hk : k ∈ m.map Prod.fst
      · exact hk
      · have := this.2 hk; rw [h] at this; cases this
    · intro _; exact ⟨v, rfl⟩

theorem MetaMap.get_of_mem {m : MetaMap} (hn : (m.map Prod.fst).Nodup) {k : Bytes} {v : MetaValue}
    (h : (k, v) ∈ m) : MetaMap.get m k = some v := by
  induction m with
  | nil => cases h
  | cons e rest ih =>
    obtain ⟨a, b⟩ := e
    simp only [List.map_cons, List.nodup_cons] at hn
    simp only [MetaMap.get]
    rcases List.mem_cons.1 h with h | h
    · cases h; simp
    · have : a ≠ k := fun he => hn.1 (he ▸ List.mem_map_of_mem h)
      rw [if_neg this]; exact ih hn.2 h

theorem MetaMap.mem_of_get {m : MetaMap} {k : Bytes} {v : MetaValue} (h : MetaMap.get m k = some v) :
    (k, v) ∈ m := by
  induction m with
  | nil => cases h
  | cons e rest ih =>
    obtain ⟨a, b⟩ := e
    simp only [MetaMap.get] at h
    split at h
    · rename_i he; subst he; cases h; simp
    · exact List.mem_cons_of_mem _ (ih h)

/-! ### round trip -/

theorem desString_ser (s rest : Bytes) (h : s.length < 2 ^ 32) :
    desString (serString s ++ rest) = .ok (s, rest) := by
  unfold desString serString
  rw [List.append_assoc, splitN_append' (by simp)]
  simp only
  rw [leNat_leBytes_of_lt (by simpa using h), splitN_append]

/-- Strings inside the value fit the 32-bit length field. -/
def MetaValue.Fits : MetaValue → Prop
  | .string s => s.length < 2 ^ 32
  | _ => True

theorem ofNat_leBytes8 (b : BitVec 64) : BitVec.ofNat 64 (leNat (leBytes 8 b.toNat)) = b := by
  rw [leNat_leBytes_of_lt (by have := b.isLt; simpa using this)]
  simp

theorem desValue_ser (v : MetaValue) (rest : Bytes) (h : v.Fits) :
    desValue (serValue v ++ rest) = .ok (v, rest) := by
  cases v with
  | int b =>
    simp only [serValue, List.cons_append, desValue, if_true]
    rw [splitN_append' (by simp)]
    simp only [ofNat_leBytes8]
  | double b =>
    simp only [serValue, List.cons_append, desValue]
    rw [if_neg (by decide), if_pos trivial, splitN_append' (by simp)]
    simp only [ofNat_leBytes8]
  | string s =>
    simp only [serValue, List.cons_append, desValue]
    rw [if_neg (by decide), if_neg (by decide), if_pos trivial, desString_ser s rest h]
    rfl
  | bool b =>
    simp only [serValue, List.cons_append, desValue]
    rw [if_neg (by decide), if_neg (by decide), if_neg (by decide), if_pos trivial]
    cases b <;> simp

/-- Raw list of entries, in file order, without merging duplicates. -/
def parseEntries : Nat → Bytes → PR (MetaMap × Bytes)
  | 0, bs => .ok ([], bs)
  | n + 1, bs =>
    (desString bs).bind fun (k, r1) =>
    (desValue r1).bind fun (v, r2) =>
    (parseEntries n r2).bind fun (es, r3) => .ok ((k, v) :: es, r3)

theorem parseEntries_ser (m : MetaMap) (rest : Bytes)
    (h : ∀ e ∈ m, e.1.length < 2 ^ 32 ∧ e.2.Fits) :
    parseEntries m.length (serEntries m ++ rest) = .ok (m, rest) := by
  induction m with
  | nil => rfl
  | cons e m ih =>
    obtain ⟨k, v⟩ := e
    have hk := h (k, v) (by simp)
    simp only [List.length_cons, parseEntries, serEntries, List.append_assoc]
    rw [desString_ser k _ hk.1]
    simp only [PR.bind]
    rw [desValue_ser v _ hk.2]
    simp only
    rw [ih (fun e he => h e (by simp [he]))]

/-- Merge in file order. -/
def mergeEntries (acc es : MetaMap) : MetaMap := es.foldl (fun a e => a.set e.1 e.2) acc

theorem mergeEntries_nodup (acc es : MetaMap) (h : ((acc ++ es).map Prod.fst).Nodup) :
    mergeEntries acc es = acc ++ es := by
  induction es generalizing acc with
  | nil => simp [mergeEntries]
  | cons e es ih =>
    obtain ⟨k, v⟩ := e
    have hk : k ∉ acc.map Prod.fst := by
      intro hk
      rw [List.map_append, List.nodup_append] at h
      exact h.2.2 k hk k (by simp) rfl
    have e1 : mergeEntries acc ((k, v) :: es) = mergeEntries (acc.set k v) es := rfl
    rw [e1, MetaMap.set_fresh acc k v hk, ih _ (by simpa using h)]
    simp

theorem desEntries_eq (n : Nat) (acc : MetaMap) (bs : Bytes) :
    desEntries n acc bs
      = (parseEntries n bs).bind fun (es, r) => .ok (mergeEntries acc es, r) := by
  induction n generalizing acc bs with
  | zero => rfl
  | succ n ih =>
    simp only [desEntries, parseEntries]
    cases h1 : desString bs with
    | bad => rfl
    | ub => rfl
    | ok p =>
      obtain ⟨k, r1⟩ := p
      simp only [PR.bind]
      cases h2 : desValue r1 with
      | bad => rfl
      | ub => rfl
      | ok q =>
        obtain ⟨v, r2⟩ := q
        simp only
        rw [ih]
        cases h3 : parseEntries n r2 with
        | bad => rfl
        | ub => rfl
        | ok t => rfl

theorem deserialize_ser (r : ScalarData) (rest : Bytes) (h1 : r.itemId.length < 2 ^ 32)
    (h2 : r.document.length < 2 ^ 32) (h3 : r.metadata.length < 2 ^ 32)
    (h4 : ∀ e ∈ r.metadata, e.1.length < 2 ^ 32 ∧ e.2.Fits)
    (h5 : (r.metadata.map Prod.fst).Nodup) :
    ScalarData.deserialize (r.serialize ++ rest) = .ok r := by
  unfold ScalarData.deserialize ScalarData.serialize
  have hne : serString r.itemId ++ serString r.document ++ serMetadata r.metadata ++ rest ≠ [] := by
    intro h
    have := congrArg List.length h
    simp [serString] at this
  rw [if_neg hne]
  simp only [List.append_assoc]
  rw [desString_ser _ _ h1]
  simp only [PR.bind]
  rw [desString_ser _ _ h2]
  simp only
  unfold desMetadata desU32 serMetadata
  rw [List.append_assoc, splitN_append' (by simp)]
  simp only [PR.bind]
  rw [leNat_leBytes_of_lt (by simpa using h3), desEntries_eq, parseEntries_ser _ _ h4]
  simp only [PR.bind]
  rw [mergeEntries_nodup _ _ (by simpa using h5)]
  simp

/-! ### exact consumption: a parser that succeeds has consumed a definite chunk and refuses every
strict prefix of that chunk -/

def Exact {α : Type} (P : Bytes → PR (α × Bytes)) : Prop :=
  ∀ x a r, P x = .ok (a, r) →
    ∃ c, x = c ++ r ∧ (∀ t, P (c ++ t) = .ok (a, t)) ∧ ∀ p s, c = p ++ s → s ≠ [] → P p = .bad

theorem exact_pure {α : Type} (a : α) : Exact (fun bs => PR.ok (a, bs)) := by
  intro x b r h
  simp only [PR.ok.injEq, Prod.mk.injEq] at h
  obtain ⟨rfl, rfl⟩ := h
  refine ⟨[], rfl, fun t => rfl, ?_⟩
  intro p s hps hs
  have := (List.append_eq_nil_iff.1 hps.symm).2
  exact absurd this hs

theorem append_cases {a b p s : Bytes} (h : a ++ b = p ++ s) :
    (∃ s', a = p ++ s' ∧ s' ≠ []) ∨ (∃ p', p = a ++ p' ∧ b = p' ++ s) := by
  rcases List.append_eq_append_iff.1 h with ⟨t, h1, h2⟩ | ⟨t, h1, h2⟩
  · exact Or.inr ⟨t, h1, h2⟩
  · by_cases ht : t = []
    · subst ht
      refine Or.inr ⟨[], ?_, ?_⟩
      · simpa using h1.symm
      · simpa using h2.symm
    · exact Or.inl ⟨t, h1, ht⟩

theorem exact_bind {α β : Type} {P : Bytes → PR (α × Bytes)} {Q : α → Bytes → PR (β × Bytes)}
    (hP : Exact P) (hQ : ∀ a, Exact (Q a)) : Exact (fun bs => (P bs).bind fun (a, r) => Q a r) := by
  intro x b r h
  cases hp : P x with
  | bad => simp [hp, PR.bind] at h
  | ub => simp [hp, PR.bind] at h
  | ok p =>
    obtain ⟨a, r1⟩ := p
    simp only [hp, PR.bind] at h
    obtain ⟨c1, e1, f1, g1⟩ := hP x a r1 hp
    obtain ⟨c2, e2, f2, g2⟩ := hQ a r1 b r h
    refine ⟨c1 ++ c2, by rw [e1, e2]; simp, ?_, ?_⟩
    · intro t
      simp only [List.append_assoc, f1, PR.bind, f2]
    · intro p s hps hs
      rcases append_cases hps with ⟨s', h1, h2⟩ | ⟨p', h1, h2⟩
      · simp only [g1 p s' h1 h2, PR.bind]
      · subst h1
        simp only [f1, PR.bind]
        exact g2 p' s h2 hs

theorem exact_splitN {α : Type} (n : Nat) (f : Bytes → α) :
    Exact (fun bs => match splitN n bs with
      | none => PR.bad
      | some (l, rest) => PR.ok (f l, rest)) := by
  intro x a r h
  simp only at h
  split at h
  · cases h
  · rename_i l rest hs
    simp only [PR.ok.injEq, Prod.mk.injEq] at h
    obtain ⟨rfl, rfl⟩ := h
    obtain ⟨e1, e2⟩ := splitN_some hs
    refine ⟨l, e1, ?_, ?_⟩
    · intro t; simp only [splitN_append' e2]
    · intro p s hps hne
      have : splitN n p = none := by
        rw [splitN_none_iff, ← e2, hps]
        have := List.length_pos_iff.2 hne
        simp; exact this
      simp only [this]

theorem exact_congr {α : Type} {P Q : Bytes → PR (α × Bytes)} (h : ∀ x, P x = Q x) (hQ : Exact Q) :
    Exact P := by
  have : P = Q := funext h
  rw [this]; exact hQ

theorem exact_desU32 : Exact desU32 :=
  exact_congr (fun _ => rfl) (exact_splitN 4 leNat)

theorem exact_desString : Exact desString := by
  refine exact_congr (Q := fun bs => (desU32 bs).bind fun (n, r) =>
    (match splitN n r with | none => PR.bad | some (l, rest) => PR.ok (id l, rest))) ?_
    (exact_bind exact_desU32 (fun n => exact_splitN n id))
  intro x
  unfold desString desU32
  cases splitN 4 x with
  | none => rfl
  | some p =>
    obtain ⟨l, rest⟩ := p
    simp only [PR.bind]
    cases splitN (leNat l) rest with
    | none => rfl
    | some q => rfl

theorem exact_cons {α : Type} {P : Bytes → PR (α × Bytes)} (Q : UInt8 → Bytes → PR (α × Bytes))
    (h0 : P [] = .bad) (hc : ∀ t bs, P (t :: bs) = Q t bs) (hQ : ∀ t, Exact (Q t)) : Exact P := by
  intro x a r h
  cases x with
  | nil => rw [h0] at h; cases h
  | cons t bs =>
    rw [hc] at h
    obtain ⟨c, e, f, g⟩ := hQ t bs a r h
    refine ⟨t :: c, by rw [e]; rfl, fun u => by rw [List.cons_append, hc, f], ?_⟩
    intro p s hps hs
    cases p with
    | nil => exact h0
    | cons t' p =>
      simp only [List.cons_append, List.cons.injEq] at hps
      rw [hc, ← hps.1]
      exact g p s hps.2 hs

theorem exact_bad {α : Type} : Exact (fun _ => (PR.bad : PR (α × Bytes))) := by
  intro x a r h; cases h

theorem exact_ub {α : Type} : Exact (fun _ => (PR.ub : PR (α × Bytes))) := by
  intro x a r h; cases h

theorem exact_ite {α : Type} (p : Prop) [Decidable p] {P Q : Bytes → PR (α × Bytes)} (hP : Exact P)
    (hQ : Exact Q) : Exact (fun bs => if p then P bs else Q bs) := by
  by_cases h : p
  · simpa [h] using hP
  · simpa [h] using hQ

theorem exact_desValue : Exact desValue := by
  refine exact_cons _ rfl (fun t bs => rfl) ?_
  intro t
  refine exact_ite _ (exact_splitN 8 _) (exact_ite _ (exact_splitN 8 _) (exact_ite _ ?_ (exact_ite _ ?_ exact_bad)))
  · exact exact_bind exact_desString (fun s => exact_pure _)
  · refine exact_cons _ rfl (fun t bs => rfl) ?_
    intro b
    exact exact_ite _ (exact_pure _) (exact_ite _ (exact_pure _) exact_ub)

theorem exact_desEntries (n : Nat) (acc : MetaMap) : Exact (desEntries n acc) := by
  induction n generalizing acc with
  | zero => exact exact_pure acc
  | succ n ih =>
    exact exact_bind exact_desString (fun k => exact_bind exact_desValue (fun v => ih _))

theorem exact_desMetadata : Exact desMetadata :=
  exact_bind exact_desU32 (fun n => exact_desEntries n [])

/-- The whole record parser before the trailing bytes are dropped. -/
def desRecord (bs : Bytes) : PR (ScalarData × Bytes) :=
  (desString bs).bind fun (i, r1) =>
  (desString r1).bind fun (d, r2) =>
  (desMetadata r2).bind fun (m, r3) => .ok (⟨i, d, m⟩, r3)

theorem exact_desRecord : Exact desRecord :=
  exact_bind exact_desString (fun _ => exact_bind exact_desString (fun _ =>
    exact_bind exact_desMetadata (fun _ => exact_pure _)))

theorem deserialize_eq (bs : Bytes) :
    ScalarData.deserialize bs = (desRecord bs).bind fun (r, _) => .ok r := by
  unfold ScalarData.deserialize desRecord
  by_cases h : bs = []
  · subst h; rfl
  · rw [if_neg h]
    cases desString bs with
    | bad => rfl
    | ub => rfl
    | ok p =>
      obtain ⟨i, r1⟩ := p
      simp only [PR.bind]
      cases desString r1 with
      | bad => rfl
      | ub => rfl
      | ok p =>
        obtain ⟨d, r2⟩ := p
        simp only
        cases desMetadata r2 with
        | bad => rfl
        | ub => rfl
        | ok p => rfl

/-! ### the skipping helpers advance like the decoding helpers -/

theorem skipString_of_desString {bs k r : Bytes} (h : desString bs = .ok (k, r)) :
    skipString bs = .ok r := by
  unfold desString at h
  unfold skipString
  cases hs : splitN 4 bs with
  | none => rw [hs] at h; cases h
  | some p =>
    obtain ⟨l, rest⟩ := p
    rw [hs] at h
    simp only at h ⊢
    unfold splitN at h
    by_cases hlen : rest.length < leNat l
    · rw [if_pos hlen] at h; cases h
    · rw [if_neg hlen] at h ⊢
      simp only [PR.ok.injEq, Prod.mk.injEq] at h
      rw [h.2]

theorem skipValue_of_desValue {bs r : Bytes} {v : MetaValue} (h : desValue bs = .ok (v, r)) :
    skipValue bs = .ok r := by
  unfold desValue at h
  unfold skipValue
  cases bs with
  | nil => cases h
  | cons t rest =>
    simp only at h ⊢
    have h8 : ∀ f : Bytes → MetaValue, (match splitN 8 rest with
        | none => PR.bad
        | some (v, r) => PR.ok (f v, r)) = PR.ok (v, r) →
        (if rest.length < 8 then PR.bad else PR.ok (rest.drop 8)) = PR.ok r := by
      intro f hf
      unfold splitN at hf
      by_cases hl : rest.length < 8
      · rw [if_pos hl] at hf; cases hf
      · rw [if_neg hl] at hf
        simp only [PR.ok.injEq, Prod.mk.injEq] at hf
        rw [if_neg hl, hf.2]
    by_cases h0 : t = 0
    · rw [if_pos h0] at h ⊢; exact h8 _ h
    · rw [if_neg h0] at h ⊢
      by_cases h1 : t = 1
      · rw [if_pos h1] at h ⊢; exact h8 _ h
      · rw [if_neg h1] at h ⊢
        by_cases h2 : t = 2
        · rw [if_pos h2] at h ⊢
          cases hd : desString rest with
          | bad => rw [hd] at h; cases h
          | ub => rw [hd] at h; cases h
          | ok p =>
            obtain ⟨s, r'⟩ := p
            rw [hd] at h
            simp only [PR.bind, PR.ok.injEq, Prod.mk.injEq] at h
            rw [skipString_of_desString hd, h.2]
        · rw [if_neg h2] at h ⊢
          by_cases h3 : t = 3
          · rw [if_pos h3] at h ⊢
            cases rest with
            | nil => cases h
            | cons b rest =>
              simp only at h
              rw [if_neg (by simp)]
              split at h
              · simp only [PR.ok.injEq, Prod.mk.injEq] at h; simp [h.2]
              · split at h
                · simp only [PR.ok.injEq, Prod.mk.injEq] at h; simp [h.2]
                · cases h
          · rw [if_neg h3] at h; cases h

theorem desString_ok_ne_nil {bs k r : Bytes} (h : desString bs = .ok (k, r)) : bs ≠ [] := by
  rintro rfl; cases h

/-- Selective loop on a well formed, duplicate free entry list. -/
theorem selLoop_spec (req : List Bytes) (n : Nat) :
    ∀ (acc : MetaMap) (bs r : Bytes) (es : MetaMap), parseEntries n bs = .ok (es, r) →
      ((acc ++ es).map Prod.fst).Nodup → (∀ k ∈ acc.map Prod.fst, k ∈ req) →
      ∃ m, selLoop req n acc bs = .ok m ∧ (m.map Prod.fst).Nodup ∧ (∀ k ∈ m.map Prod.fst, k ∈ req) ∧
        ∀ k ∈ req, m.get k = MetaMap.get (acc ++ es) k := by
  induction n with
  | zero =>
    intro acc bs r es h hn hsub
    simp only [parseEntries, PR.ok.injEq, Prod.mk.injEq] at h
    rw [← h.1] at hn ⊢
    rw [List.append_nil] at *
    exact ⟨acc, rfl, hn, hsub, fun _ _ => rfl⟩
  | succ n ih =>
    intro acc bs r es h hn hsub
    simp only [parseEntries] at h
    cases h1 : desString bs with
    | bad => rw [h1] at h; cases h
    | ub => rw [h1] at h; cases h
    | ok p =>
      obtain ⟨k, r1⟩ := p
      rw [h1] at h
      simp only [PR.bind] at h
      cases h2 : desValue r1 with
      | bad => rw [h2] at h; cases h
      | ub => rw [h2] at h; cases h
      | ok q =>
        obtain ⟨v, r2⟩ := q
        rw [h2] at h
        simp only at h
        cases h3 : parseEntries n r2 with
        | bad => rw [h3] at h; cases h
        | ub => rw [h3] at h; cases h
        | ok t =>
          obtain ⟨es', r3⟩ := t
          rw [h3] at h
          simp only [PR.ok.injEq, Prod.mk.injEq] at h
          obtain ⟨rfl, rfl⟩ := h
          have hkacc : k ∉ acc.map Prod.fst := by
            intro hk
            rw [List.map_append, List.nodup_append] at hn
            exact hn.2.2 k hk k (by simp) rfl
          simp only [selLoop]
          rw [if_neg (desString_ok_ne_nil h1), h1]
          simp only
          by_cases hk : k ∈ req
          · rw [if_pos hk, h2]
            simp only
            have hemp : acc.emplace k v = acc ++ [(k, v)] := by
              unfold MetaMap.emplace
              rw [(MetaMap.get_eq_none_iff acc k).2 hkacc]
            rw [hemp]
            have hn' : ((acc ++ [(k, v)] ++ es').map Prod.fst).Nodup := by
              simpa using hn
            have hsub' : ∀ k' ∈ (acc ++ [(k, v)]).map Prod.fst, k' ∈ req := by
              intro k' hk'
              simp only [List.map_append, List.map_cons, List.map_nil, List.mem_append,
                List.mem_singleton] at hk'
              rcases hk' with hk' | rfl
              · exact hsub k' hk'
              · exact hk
            by_cases hlen : (acc ++ [(k, v)]).length = req.length
            · rw [if_pos hlen]
              have hn1 : ((acc ++ [(k, v)]).map Prod.fst).Nodup := by
                rw [List.map_append] at hn'
                exact (List.nodup_append.1 hn').1
              refine ⟨_, rfl, hn1, hsub', ?_⟩
              intro k' hk'
              have hcov := nodup_subset_covers hn1 hsub' (by rw [List.length_map, hlen]; exact Nat.le_refl _) k' hk'
              have e1 : acc ++ (k, v) :: es' = (acc ++ [(k, v)]) ++ es' := by simp
              obtain ⟨w, hw⟩ := (MetaMap.get_isSome_iff _ k').2 hcov
              rw [e1, MetaMap.get_append (acc ++ [(k, v)]) es', hw]; rfl
            · rw [if_neg hlen]
              obtain ⟨m, hm, hmn, hms, hmg⟩ := ih _ _ _ _ h3 hn' hsub'
              refine ⟨m, hm, hmn, hms, ?_⟩
              intro k' hk'
              rw [hmg k' hk']; simp
          · rw [if_neg hk, skipValue_of_desValue h2]
            simp only
            have hn' : ((acc ++ es').map Prod.fst).Nodup := by
              apply List.Nodup.sublist _ hn
              apply List.Sublist.map
              exact List.Sublist.append (List.Sublist.refl _) (List.sublist_cons_self _ _)
            obtain ⟨m, hm, hmn, hms, hmg⟩ := ih _ _ _ _ h3 hn' hsub
            refine ⟨m, hm, hmn, hms, ?_⟩
            intro k' hk'
            rw [hmg k' hk', MetaMap.get_append, MetaMap.get_append]
            have : k ≠ k' := fun he => hk (he ▸ hk')
            simp [MetaMap.get, this]

theorem singleLoop_spec (field : Bytes) (n : Nat) :
    ∀ (bs r : Bytes) (es : MetaMap), parseEntries n bs = .ok (es, r) →
      singleLoop field n bs = .ok (es.get field) := by
  induction n with
  | zero =>
    intro bs r es h
    simp only [parseEntries, PR.ok.injEq, Prod.mk.injEq] at h
    rw [← h.1]; rfl
  | succ n ih =>
    intro bs r es h
    simp only [parseEntries] at h
    cases h1 : desString bs with
    | bad => rw [h1] at h; cases h
    | ub => rw [h1] at h; cases h
    | ok p =>
      obtain ⟨k, r1⟩ := p
      rw [h1] at h
      simp only [PR.bind] at h
      cases h2 : desValue r1 with
      | bad => rw [h2] at h; cases h
      | ub => rw [h2] at h; cases h
      | ok q =>
        obtain ⟨v, r2⟩ := q
        rw [h2] at h
        simp only at h
        cases h3 : parseEntries n r2 with
        | bad => rw [h3] at h; cases h
        | ub => rw [h3] at h; cases h
        | ok t =>
          obtain ⟨es', r3⟩ := t
          rw [h3] at h
          simp only [PR.ok.injEq, Prod.mk.injEq] at h
          obtain ⟨rfl, rfl⟩ := h
          simp only [singleLoop]
          rw [if_neg (desString_ok_ne_nil h1), h1]
          simp only [MetaMap.get]
          by_cases hk : k = field
          · rw [if_pos hk, if_pos hk, h2]
          · rw [if_neg hk, if_neg hk, skipValue_of_desValue h2]
            exact ih _ _ _ h3

/-- Shape of an accepted byte string. -/
theorem desRecord_ok {data : Bytes} {rec : ScalarData} {rest : Bytes}
    (h : desRecord data = .ok (rec, rest)) :
    ∃ r2 c body es r3, (skipString data).bind skipString = .ok r2 ∧ splitN 4 r2 = some (c, body) ∧
      parseEntries (leNat c) body = .ok (es, r3) ∧ rec.metadata = mergeEntries [] es := by
  unfold desRecord at h
  cases h1 : desString data with
  | bad => rw [h1] at h; cases h
  | ub => rw [h1] at h; cases h
  | ok p =>
    obtain ⟨i, r1⟩ := p
    rw [h1] at h; simp only [PR.bind] at h
    cases h2 : desString r1 with
    | bad => rw [h2] at h; cases h
    | ub => rw [h2] at h; cases h
    | ok q =>
      obtain ⟨d, r2⟩ := q
      rw [h2] at h; simp only at h
      unfold desMetadata desU32 at h
      cases h3 : splitN 4 r2 with
      | none => rw [h3] at h; cases h
      | some cb =>
        obtain ⟨c, body⟩ := cb
        rw [h3] at h
        simp only [PR.bind] at h
        rw [desEntries_eq] at h
        cases h4 : parseEntries (leNat c) body with
        | bad => rw [h4] at h; cases h
        | ub => rw [h4] at h; cases h
        | ok t =>
          obtain ⟨es, r3⟩ := t
          rw [h4] at h
          simp only [PR.bind, PR.ok.injEq, Prod.mk.injEq] at h
          refine ⟨r2, c, body, es, r3, ?_, h3, h4, ?_⟩
          · rw [skipString_of_desString h1]
            simp only [PR.bind]
            exact skipString_of_desString h2
          · rw [← h.1]

theorem deserialize_ok {data : Bytes} {rec : ScalarData} (h : ScalarData.deserialize data = .ok rec) :
    ∃ rest, desRecord data = .ok (rec, rest) := by
  rw [deserialize_eq] at h
  cases h1 : desRecord data with
  | bad => rw [h1] at h; cases h
  | ub => rw [h1] at h; cases h
  | ok p =>
    obtain ⟨r, rest⟩ := p
    rw [h1] at h
    simp only [PR.bind, PR.ok.injEq] at h
    exact ⟨rest, by rw [h]⟩

theorem deserialize_ok_ne_nil {data : Bytes} {rec : ScalarData}
    (h : ScalarData.deserialize data = .ok rec) : data ≠ [] := by
  rintro rfl; cases h

theorem mergeEntries_keys_nodup (acc es : MetaMap) (h : (acc.map Prod.fst).Nodup) :
    ((mergeEntries acc es).map Prod.fst).Nodup := by
  induction es generalizing acc with
  | nil => exact h
  | cons e es ih =>
    obtain ⟨k, v⟩ := e
    have e1 : mergeEntries acc ((k, v) :: es) = mergeEntries (acc.set k v) es := rfl
    rw [e1]
    apply ih
    by_cases hk : k ∈ acc.map Prod.fst
    · have : (acc.set k v).map Prod.fst = acc.map Prod.fst := by
        clear ih h e1
        induction acc with
        | nil => simp at hk
        | cons e acc ih2 =>
          obtain ⟨a, b⟩ := e
          simp only [MetaMap.set]
          split
          · rfl
          · rename_i hne
            simp only [List.map_cons, List.mem_cons] at hk ⊢
            rcases hk with rfl | hk
            · exact absurd rfl hne
            · rw [ih2 hk]
      rw [this]; exact h
    · rw [MetaMap.set_fresh acc k v hk]
      simp only [List.map_append, List.map_cons, List.map_nil]
      rw [List.nodup_append]
      refine ⟨h, by simp, ?_⟩
      intro a ha b hb
      simp only [List.mem_singleton] at hb
      rintro rfl
      exact hk (hb ▸ ha)

theorem mergeEntries_length (acc es : MetaMap) (h : (acc.map Prod.fst).Nodup)
    (hl : (mergeEntries acc es).length = acc.length + es.length) : ((acc ++ es).map Prod.fst).Nodup := by
  have hset : ∀ (m : MetaMap) k v, (m.set k v).length ≤ m.length + 1 ∧
      (k ∈ m.map Prod.fst → (m.set k v).length = m.length) := by
    intro m k v
    induction m with
    | nil => simp [MetaMap.set]
    | cons e m ih =>
      obtain ⟨a, b⟩ := e
      simp only [MetaMap.set]
      split
      · simp
      · rename_i hne
        simp only [List.length_cons, List.map_cons, List.mem_cons]
        refine ⟨by omega, ?_⟩
        rintro (rfl | hk)
        · exact absurd rfl hne
        · rw [ih.2 hk]
  have hle : ∀ (es acc : MetaMap), (mergeEntries acc es).length ≤ acc.length + es.length := by
    intro es
    induction es with
    | nil => intro acc; simp [mergeEntries]
    | cons e es ih =>
      intro acc
      have e1 : mergeEntries acc (e :: es) = mergeEntries (acc.set e.1 e.2) es := rfl
      rw [e1]
      have := ih (acc.set e.1 e.2)
      have := (hset acc e.1 e.2).1
      simp only [List.length_cons]; omega
  induction es generalizing acc with
  | nil => simpa using h
  | cons e es ih =>
    obtain ⟨k, v⟩ := e
    have e1 : mergeEntries acc ((k, v) :: es) = mergeEntries (acc.set k v) es := rfl
    rw [e1] at hl
    have h2 := hle es (acc.set k v)
    by_cases hk : k ∈ acc.map Prod.fst
    · have := (hset acc k v).2 hk
      simp only [List.length_cons] at hl
      omega
    · rw [MetaMap.set_fresh acc k v hk] at hl
      have hn : ((acc ++ [(k, v)]).map Prod.fst).Nodup := by
        simp only [List.map_append, List.map_cons, List.map_nil]
        rw [List.nodup_append]
        refine ⟨h, by simp, ?_⟩
        intro a ha b hb
        simp only [List.mem_singleton] at hb
        rintro rfl
        exact hk (hb ▸ ha)
      have := ih _ hn (by simp only [List.length_append, List.length_cons, List.length_nil] at *; omega)
      simpa using this

end Alaya
