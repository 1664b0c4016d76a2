import Verif.Lemmas.RocksStoreOps
import Verif.Props.C01
import Verif.Props.C02

namespace Alaya
open Spec

/-- No other indexed field name continues `f` with an underscore, or is continued that way to `f`. -/
def FieldSep (fields : List Bytes) (f : Bytes) : Prop :=
  ∀ g ∈ fields, g ≠ f → ¬ (f ++ [us] <+: g) ∧ ¬ (g ++ [us] <+: f)

instance (fields : List Bytes) (f : Bytes) : Decidable (FieldSep fields f) := by
  unfold FieldSep; infer_instance

/-- Two delimited strings at the start of the same string. -/
theorem delim_cases {c : UInt8} {a b x y : Bytes} (h : a ++ c :: x = b ++ c :: y) :
    a = b ∨ a ++ [c] <+: b ∨ b ++ [c] <+: a := by
  rcases Nat.lt_trichotomy a.length b.length with hl | hl | hl
  · right; left
    have hp : a ++ [c] <+: b ++ c :: y := ⟨x, by simpa using h⟩
    exact List.prefix_of_prefix_length_le hp ⟨c :: y, rfl⟩ (by simp; omega)
  · left
    exact (List.append_inj h hl).1
  · right; right
    have hp : b ++ [c] <+: a ++ c :: x := ⟨y, by simpa using h.symm⟩
    exact List.prefix_of_prefix_length_le hp ⟨c :: x, rfl⟩ (by simp; omega)

/-- A key of field `g` inside the prefix of field `f`. -/
theorem field_of_prefix {fields : List Bytes} {f g e : Bytes} {id : Nat} (hs : FieldSep fields f)
    (hg : g ∈ fields) (h : fieldPrefix f <+: fieldIndexKey g e id) : g = f := by
  obtain ⟨t, ht⟩ := h
  unfold fieldPrefix fieldIndexKey at ht
  simp only [List.append_assoc, List.append_cancel_left_eq] at ht
  have h2 : f ++ us :: t = g ++ us :: (e ++ ([us] ++ decStr id)) := by simpa using ht
  rcases delim_cases h2 with h3 | h3 | h3
  · exact h3.symm
  · by_cases hgf : g = f
    · exact hgf
    · exact absurd h3 (hs g hg hgf).1
  · by_cases hgf : g = f
    · exact hgf
    · exact absurd h3 (hs g hg hgf).2

/-- The values whose index entries lie under the prefix of `v`. -/
def IndexHit (v w : MetaValue) : Prop :=
  w = v ∨ ∃ a b, v = .string a ∧ w = .string b ∧ a ++ [us] <+: b

theorem encodeDouble_inj {a b : BitVec 64} (h : encodeDouble a = encodeDouble b) : a = b := by
  have := C02_decode_encode_double a
  rw [h, C02_decode_encode_double] at this
  injection this with this
  exact this.symm

theorem hit_of_prefix {v w : MetaValue} {id : Nat}
    (h : encodeValue v ++ [us] <+: encodeValue w ++ [us] ++ decStr id) : IndexHit v w := by
  obtain ⟨t, ht⟩ := h
  have fixed : ∀ (p q : UInt8) (a b : Bytes), a.length = b.length →
      ([p, q] ++ a ++ [us] ++ t = [p, q] ++ b ++ [us] ++ decStr id) → a = b := by
    intro p q a b hl he
    simp only [List.append_assoc, List.append_cancel_left_eq] at he
    exact (List.append_inj he hl).1
  cases v with
  | int a =>
    cases w with
    | int b =>
      left
      rw [C01_encode_int64_injective a b (fixed _ _ _ _ (by simp [C01_encode_int64_length]) ht)]
    | double b => simp [encodeValue] at ht
    | string b => simp [encodeValue] at ht
    | bool b => simp [encodeValue] at ht
  | double a =>
    cases w with
    | double b =>
      left
      rw [encodeDouble_inj (fixed _ _ _ _ (by simp [C02_encode_double_length]) ht)]
    | int b => simp [encodeValue] at ht
    | string b => simp [encodeValue] at ht
    | bool b => simp [encodeValue] at ht
  | bool a =>
    cases w with
    | bool b =>
      left
      cases a <;> cases b <;> simp_all [encodeValue]
    | int b => simp [encodeValue] at ht
    | string b => simp [encodeValue] at ht
    | double b => simp [encodeValue] at ht
  | string a =>
    cases w with
    | string b =>
      have h2 : a ++ us :: t = b ++ us :: decStr id := by
        simpa [encodeValue] using ht
      rcases delim_cases h2 with h3 | h3 | h3
      · left; rw [h3]
      · right; exact ⟨a, b, rfl, rfl, h3⟩
      · obtain ⟨z, hz⟩ := h3
        rw [← hz] at h2
        simp only [List.append_assoc, List.append_cancel_left_eq,
          List.cons_append, List.cons.injEq, true_and] at h2
        exfalso
        apply us_not_mem_decStr id
        rw [← h2]; simp
    | int b => simp [encodeValue] at ht
    | bool b => simp [encodeValue] at ht
    | double b => simp [encodeValue] at ht

theorem prefix_of_hit {v w : MetaValue} {id : Nat} (h : IndexHit v w) :
    encodeValue v ++ [us] <+: encodeValue w ++ [us] ++ decStr id := by
  rcases h with rfl | ⟨a, b, rfl, rfl, c, hc⟩
  · exact ⟨decStr id, rfl⟩
  · refine ⟨c ++ [us] ++ decStr id, ?_⟩
    simp [encodeValue, ← hc]

theorem key_prefix_iff {fields : List Bytes} {f g : Bytes} (hs : FieldSep fields f) (hg : g ∈ fields)
    {v w : MetaValue} {id : Nat} :
    fieldIndexPrefix f (encodeValue v) <+: fieldIndexKey g (encodeValue w) id ↔ g = f ∧ IndexHit v w := by
  constructor
  · intro h
    have h1 : fieldPrefix f <+: fieldIndexPrefix f (encodeValue v) :=
      ⟨encodeValue v ++ [us], by simp [fieldPrefix, fieldIndexPrefix]⟩
    have hgf := field_of_prefix hs hg (h1.trans h)
    subst hgf
    refine ⟨rfl, hit_of_prefix (id := id) ?_⟩
    obtain ⟨t, ht⟩ := h
    refine ⟨t, ?_⟩
    simp only [fieldIndexPrefix, fieldIndexKey, List.append_assoc, List.append_cancel_left_eq] at ht
    simpa using ht
  · rintro ⟨rfl, h⟩
    obtain ⟨t, ht⟩ := prefix_of_hit (id := id) h
    refine ⟨t, ?_⟩
    simp only [fieldIndexPrefix, fieldIndexKey, List.append_assoc, List.append_cancel_left_eq]
    simpa using ht

/-! ### ids of a list of index keys -/

theorem extractAll_spec {c : IdCfg} {ks : List Bytes}
    (h : ∀ k ∈ ks, ∃ i, extractId c k = some i) :
    ∃ l, extractAll c ks = some l ∧ ∀ i, i ∈ l ↔ ∃ k ∈ ks, extractId c k = some i := by
  induction ks with
  | nil => exact ⟨[], rfl, by simp⟩
  | cons k ks ih =>
    obtain ⟨i, hi⟩ := h k (by simp)
    obtain ⟨l, hl, hm⟩ := ih fun k' hk' => h k' (by simp [hk'])
    refine ⟨i :: l, by simp [extractAll, hi, hl], ?_⟩
    intro j
    rw [List.mem_cons, hm]
    constructor
    · rintro (rfl | ⟨k', hk', h2⟩)
      · exact ⟨k, by simp, hi⟩
      · exact ⟨k', by simp [hk'], h2⟩
    · rintro ⟨k', hk', h2⟩
      rcases List.mem_cons.1 hk' with rfl | hk'
      · rw [hi] at h2; injection h2 with h2; exact Or.inl h2.symm
      · exact Or.inr ⟨k', hk', h2⟩

theorem extractAll_nodup {c : IdCfg} {ks : List Bytes} {l : List Nat} (hl : extractAll c ks = some l)
    (hn : ks.Nodup) (hinj : ∀ a ∈ ks, ∀ b ∈ ks, extractId c a = extractId c b → a = b) : l.Nodup := by
  induction ks generalizing l with
  | nil => simp only [extractAll, Option.some.injEq] at hl; subst hl; simp
  | cons k ks ih =>
    simp only [extractAll] at hl
    cases hk : extractId c k with
    | none => rw [hk] at hl; simp at hl
    | some i =>
      rw [hk] at hl
      cases hr : extractAll c ks with
      | none => rw [hr] at hl; simp at hl
      | some r =>
        rw [hr] at hl
        simp only [Option.map_some, Option.some.injEq] at hl
        subst hl
        rw [List.nodup_cons] at hn
        rw [List.nodup_cons]
        refine ⟨?_, ih hr hn.2 fun a ha b hb => hinj a (by simp [ha]) b (by simp [hb])⟩
        intro hmem
        have hex : ∀ k' ∈ ks, ∃ i, extractId c k' = some i := by
          intro k' hk'
          cases he : extractId c k' with
          | some j => exact ⟨j, rfl⟩
          | none =>
            exfalso
            have : ∀ l' : List Bytes, k' ∈ l' → extractAll c l' = none := by
              intro l'
              induction l' with
              | nil => simp
              | cons z l' ih2 =>
                intro hz
                rcases List.mem_cons.1 hz with rfl | hz
                · simp [extractAll, he]
                · simp only [extractAll, ih2 hz]
                  cases extractId c z <;> rfl
            rw [this ks hk'] at hr
            simp at hr
        obtain ⟨l', h1, h2⟩ := extractAll_spec hex
        rw [hr] at h1; injection h1 with h1; subst h1
        obtain ⟨k', hk', he⟩ := (h2 i).1 hmem
        have := hinj k (by simp) k' (by simp [hk']) (by rw [hk, he])
        subst this
        exact hn.1 hk'

/-- The keys of the database under the prefix of a separated field. -/
theorem Rel.fieldKey_iff {cfg : StoreCfg} {kv : KV} {m : RecordMap} (h : Rel cfg kv m) {f : Bytes}
    (hs : FieldSep cfg.fields f) {k : Bytes} (hk : fieldPrefix f <+: k) :
    (∃ v, (k, v) ∈ kv) ↔ f ∈ cfg.fields ∧ ∃ id r w, m.get id = some r ∧ r.metadata.get f = some w ∧
      k = fieldIndexKey f (encodeValue w) id := by
  have hh : k.head? = some 102 := by
    obtain ⟨t, rfl⟩ := hk; rfl
  constructor
  · rintro ⟨v, hv⟩
    rw [KV.mem_iff_get h.sorted] at hv
    obtain ⟨_, id, r, h1, h2⟩ := (h.field k v hh).1 hv
    obtain ⟨g, w, h3, h4, rfl⟩ := mem_fieldKeys.1 h2
    have := field_of_prefix hs h3 hk
    subst this
    exact ⟨h3, id, r, w, h1, h4, rfl⟩
  · rintro ⟨hf, id, r, w, h1, h2, h3⟩
    refine ⟨[], (KV.mem_iff_get h.sorted _ _).2 ((h.field k [] hh).2 ⟨rfl, id, r, h1, ?_⟩)⟩
    exact mem_fieldKeys.2 ⟨f, w, hf, h2, h3⟩

/-- Ids taken from a duplicate-free selection of keys of field `f`. -/
theorem Rel.ids_of_keys {cfg : StoreCfg} (hc : cfg.id.Ok) {kv : KV} {m : RecordMap} (h : Rel cfg kv m)
    {f : Bytes} (hs : FieldSep cfg.fields f) {ks : List Bytes} (hn : ks.Nodup) (p : MetaValue → Prop)
    (hks : ∀ k, k ∈ ks ↔ fieldPrefix f <+: k ∧ (∃ v, (k, v) ∈ kv) ∧
      ∀ w id, k = fieldIndexKey f (encodeValue w) id → p w) :
    ∃ l, extractAll cfg.id ks = some l ∧ l.Nodup ∧
      ∀ id, id ∈ l ↔ f ∈ cfg.fields ∧ ∃ r w, m.get id = some r ∧ r.metadata.get f = some w ∧ p w := by
  have key : ∀ k ∈ ks, f ∈ cfg.fields ∧ ∃ id r w, m.get id = some r ∧ r.metadata.get f = some w ∧
      k = fieldIndexKey f (encodeValue w) id ∧ p w ∧ extractId cfg.id k = some id := by
    intro k hk
    obtain ⟨h1, h2, h3⟩ := (hks k).1 hk
    obtain ⟨hf, id, r, w, h4, h5, h6⟩ := (h.fieldKey_iff hs h1).1 h2
    refine ⟨hf, id, r, w, h4, h5, h6, h3 w id h6, ?_⟩
    rw [h6, extractId_fieldIndexKey hc _ _ (h.ids id r h4).1]
  have encInj : ∀ (w w' : MetaValue) (id id' : Nat),
      fieldIndexKey f (encodeValue w) id = fieldIndexKey f (encodeValue w') id' → w = w' := by
    intro w w' id id' he
    have h1 := rsplit_fieldIndexKey f (encodeValue w) id
    rw [he, rsplit_fieldIndexKey] at h1
    injection h1 with h1
    have h2 := congrArg Prod.fst h1
    simp only [List.append_assoc, List.append_cancel_left_eq] at h2
    have h3 : IndexHit w w' := hit_of_prefix (id := id') ⟨decStr id', by rw [h2]⟩
    rcases h3 with h3 | ⟨a, b, rfl, rfl, _⟩
    · exact h3.symm
    · simp [encodeValue] at h2; rw [h2]
  obtain ⟨l, hl, hm⟩ := extractAll_spec (c := cfg.id) (ks := ks) fun k hk => by
    obtain ⟨_, id, r, w, _, _, _, _, h2⟩ := key k hk
    exact ⟨id, h2⟩
  refine ⟨l, hl, extractAll_nodup hl hn ?_, ?_⟩
  · intro a ha b hb he
    obtain ⟨_, i, r, w, h1, h2, h3, _, h4⟩ := key a ha
    obtain ⟨_, j, r', w', h1', h2', h3', _, h4'⟩ := key b hb
    rw [h4, h4'] at he
    injection he with he
    subst he
    rw [h1] at h1'; injection h1' with h1'; subst h1'
    rw [h2] at h2'; injection h2' with h2'; subst h2'
    rw [h3, h3']
  · intro id
    rw [hm]
    constructor
    · rintro ⟨k, hk, he⟩
      obtain ⟨hf, i, r, w, h1, h2, h3, h5, h4⟩ := key k hk
      rw [h4] at he; injection he with he; subst he
      exact ⟨hf, r, w, h1, h2, h5⟩
    · rintro ⟨hf, r, w, h1, h2, h3⟩
      refine ⟨fieldIndexKey f (encodeValue w) id, (hks _).2 ⟨?_, ?_, ?_⟩, ?_⟩
      · exact ⟨encodeValue w ++ [us] ++ decStr id, by simp [fieldPrefix, fieldIndexKey]⟩
      · exact (h.fieldKey_iff hs ⟨encodeValue w ++ [us] ++ decStr id, by
          simp [fieldPrefix, fieldIndexKey]⟩).2 ⟨hf, id, r, w, h1, h2, rfl⟩
      · intro w' id' he
        rw [← encInj w w' id id' he]; exact h3
      · exact extractId_fieldIndexKey hc _ _ (h.ids id r h1).1

theorem sorted_keys_nodup {kv : KV} (h : kv.Sorted) : (kv.map Prod.fst).Nodup := by
  unfold KV.Sorted at h
  unfold List.Nodup
  rw [List.pairwise_map]
  exact h.imp fun hab => blt_ne hab

/-- Equality lookup. -/
theorem idsByFieldValue_spec {cfg : StoreCfg} (hc : cfg.id.Ok) {kv : KV} {m : RecordMap} (h : Rel cfg kv m)
    {f : Bytes} (hs : FieldSep cfg.fields f) (v : MetaValue) :
    ∃ l, idsByFieldValue cfg.id kv f v = some l ∧ l.Nodup ∧
      ∀ id, id ∈ l ↔ f ∈ cfg.fields ∧ ∃ r w, m.get id = some r ∧ r.metadata.get f = some w ∧
        IndexHit v w := by
  unfold idsByFieldValue
  rw [KV.prefixScan_eq_filter h.sorted]
  have hpre : fieldPrefix f <+: fieldIndexPrefix f (encodeValue v) :=
    ⟨encodeValue v ++ [us], by simp [fieldPrefix, fieldIndexPrefix]⟩
  apply h.ids_of_keys hc hs
  · apply List.Nodup.sublist _ (sorted_keys_nodup h.sorted)
    exact List.Sublist.map _ List.filter_sublist
  · intro k
    rw [List.mem_map]
    constructor
    · rintro ⟨⟨k', v'⟩, hm, rfl⟩
      rw [List.mem_filter] at hm
      have hp := List.isPrefixOf_iff_prefix.1 hm.2
      refine ⟨hpre.trans hp, ⟨v', hm.1⟩, ?_⟩
      intro w id he
      simp only at he hp
      subst he
      obtain ⟨hf, _⟩ := (h.fieldKey_iff hs (hpre.trans hp)).1 ⟨v', hm.1⟩
      exact ((key_prefix_iff hs hf).1 hp).2
    · rintro ⟨h1, ⟨v', h2⟩, h3⟩
      refine ⟨(k, v'), ?_, rfl⟩
      rw [List.mem_filter]
      refine ⟨h2, List.isPrefixOf_iff_prefix.2 ?_⟩
      obtain ⟨hf, id, r, w, _, _, he⟩ := (h.fieldKey_iff hs h1).1 ⟨v', h2⟩
      simp only
      rw [he]
      exact (key_prefix_iff hs hf).2 ⟨rfl, h3 w id he⟩

/-! ### ranges -/

theorem prefix_lt_of_le {p a : Bytes} (h : ¬ a < p) (t : Bytes) : ¬ a ++ t < p := by
  intro hlt
  by_cases he : a = p
  · subst he; exact not_lt_prefix ⟨t, rfl⟩ hlt
  · have := blt_of_not h he
    have h2 : ¬ a ++ t < a := not_lt_prefix ⟨t, rfl⟩
    by_cases he2 : a ++ t = a
    · rw [he2] at hlt; exact h hlt
    · exact absurd (blt_trans (blt_trans this (blt_of_not h2 he2)) hlt) (blt_irrefl _)

theorem append_not_lt {x y : Bytes} (hl : x.length = y.length) (t : Bytes) : ¬ x ++ t < y ↔ ¬ x < y := by
  constructor
  · intro h hxy
    apply h
    have := append_lt_append_of_lt hl hxy t []
    simpa using this
  · intro h
    exact prefix_lt_of_le h t

/-- Shape of an entry counted by the range loop. -/
def RangeKey (fp tag x : Bytes) (id : Nat) : Bytes := fp ++ tag ++ x ++ [us] ++ decStr id

theorem rsplit_rangeKey (fp tag x : Bytes) (id : Nat) :
    rsplit us (RangeKey fp tag x id) = some (fp ++ tag ++ x, decStr id) := by
  unfold RangeKey
  rw [List.append_assoc _ [us] (decStr id)]
  exact rsplit_append _ _ (us_not_mem_decStr id)

theorem rangeLoop_sublist (fp tag hi : Bytes) (kv : KV) :
    (rangeLoop fp tag hi kv).Sublist (kv.map Prod.fst) := by
  induction kv with
  | nil => exact List.Sublist.refl _
  | cons e kv ih =>
    simp only [rangeLoop, List.map_cons]
    split
    · split
      · exact ih.cons _
      · cases rsplit us e.1 with
        | none => exact ih.cons _
        | some p =>
          simp only
          split
          · exact ih.cons _
          · split
            · exact List.nil_sublist _
            · exact ih.cons_cons _
    · exact List.nil_sublist _

/-- What the range loop takes from a sorted list of keys not below the field prefix, if every key with the
prefix and the tag has a 16-byte value part. -/
theorem mem_rangeLoop {fp tag hi : Bytes} (ht : tag.length = 2) (kv : KV)
    (hs : kv.Sorted) (hge : ∀ e ∈ kv, ¬ e.1 < fp)
    (hwf : ∀ e ∈ kv, fp ++ tag <+: e.1 → ∃ x id, x.length = 16 ∧ e.1 = RangeKey fp tag x id) (k : Bytes) :
    k ∈ rangeLoop fp tag hi kv ↔
      ∃ v x id, (k, v) ∈ kv ∧ x.length = 16 ∧ k = RangeKey fp tag x id ∧ ¬ hi < x := by
  induction kv with
  | nil => simp [rangeLoop]
  | cons e kv ih =>
    have hs' := List.pairwise_cons.1 hs
    have ih' := ih hs'.2 (fun e' h => hge e' (by simp [h])) (fun e' h => hwf e' (by simp [h]))
    have skip : (¬ ∃ x id, x.length = 16 ∧ e.1 = RangeKey fp tag x id) →
        ((∃ v x id, (k, v) ∈ e :: kv ∧ x.length = 16 ∧ k = RangeKey fp tag x id ∧ ¬ hi < x) ↔
          ∃ v x id, (k, v) ∈ kv ∧ x.length = 16 ∧ k = RangeKey fp tag x id ∧ ¬ hi < x) := by
      intro hno
      constructor
      · rintro ⟨v, x, id, hm, h1, h2, h3⟩
        rcases List.mem_cons.1 hm with hm | hm
        · exact absurd ⟨x, id, h1, by rw [← hm]; exact h2⟩ hno
        · exact ⟨v, x, id, hm, h1, h2, h3⟩
      · rintro ⟨v, x, id, hm, h1⟩
        exact ⟨v, x, id, by simp [hm], h1⟩
    have rkpre : ∀ x id, fp ++ tag <+: RangeKey fp tag x id := fun x id =>
      ⟨x ++ [us] ++ decStr id, by simp [RangeKey]⟩
    by_cases hp : fp <+: e.1
    · by_cases htag : fp ++ tag <+: e.1
      · obtain ⟨x, id, hx, he⟩ := hwf e (by simp) htag
        have hd : (e.1.drop fp.length).take 2 = tag := by
          rw [he]; unfold RangeKey
          simp only [List.append_assoc, List.drop_left]
          rw [← ht]; simp
        have hlen : ¬ e.1.length < fp.length + 2 := by
          rw [he]; unfold RangeKey; simp [ht]
        have hdrop : (fp ++ tag ++ x).drop (fp.length + 2) = x := by
          rw [show fp.length + 2 = (fp ++ tag).length by simp [ht]]
          exact List.drop_left
        have hgt : ¬ (fp ++ tag ++ x).length ≤ fp.length + 2 := by
          simp [ht, hx]
        have hstep : rangeLoop fp tag hi (e :: kv)
            = if hi < x then [] else e.1 :: rangeLoop fp tag hi kv := by
          simp only [rangeLoop]
          rw [if_pos (List.isPrefixOf_iff_prefix.2 hp), if_neg (by simp [hlen, hd])]
          rw [show rsplit us e.1 = some (fp ++ tag ++ x, decStr id) by rw [he, rsplit_rangeKey]]
          simp only
          rw [if_neg hgt, hdrop]
        rw [hstep]
        by_cases hend : hi < x
        · rw [if_pos hend]
          constructor
          · intro h; simp at h
          · rintro ⟨v, y, id', hm, hy, hk, hny⟩
            exfalso
            rcases List.mem_cons.1 hm with hm | hm
            · have : k = e.1 := by rw [← hm]
              rw [this, he] at hk
              have h1 := rsplit_rangeKey fp tag x id
              rw [hk, rsplit_rangeKey] at h1
              injection h1 with h1
              have h2 := congrArg Prod.fst h1
              simp only [List.append_assoc, List.append_cancel_left_eq] at h2
              subst h2; exact hny hend
            · have hlt : e.1 < k := hs'.1 _ hm
              have hyx : y < x := by
                by_cases hyh : y = hi
                · rw [hyh]; exact hend
                · exact blt_trans (blt_of_not hny (Ne.symm hyh)) hend
              have : k < e.1 := by
                rw [hk, he]; unfold RangeKey
                simp only [List.append_assoc]
                rw [append_lt_append_left, append_lt_append_left]
                exact append_lt_append_of_lt (by omega) hyx _ _
              exact blt_asymm hlt this
        · rw [if_neg hend, List.mem_cons, ih']
          constructor
          · rintro (rfl | ⟨v, y, id', hm, h1⟩)
            · exact ⟨e.2, x, id, by simp, hx, he, hend⟩
            · exact ⟨v, y, id', by simp [hm], h1⟩
          · rintro ⟨v, y, id', hm, h1⟩
            rcases List.mem_cons.1 hm with hm | hm
            · left; rw [← hm]
            · exact Or.inr ⟨v, y, id', hm, h1⟩
      · have hstep : rangeLoop fp tag hi (e :: kv) = rangeLoop fp tag hi kv := by
          simp only [rangeLoop]
          rw [if_pos (List.isPrefixOf_iff_prefix.2 hp), if_pos]
          by_cases hl : e.1.length < fp.length + 2
          · exact Or.inl hl
          · right
            intro hd
            apply htag
            obtain ⟨t, ht2⟩ := hp
            rw [← ht2, List.drop_left] at hd
            rw [← ht2, ← hd]
            exact ⟨t.drop 2, by simp⟩
        rw [hstep, ih', skip]
        rintro ⟨x, id, _, he⟩
        exact htag (he ▸ rkpre x id)
    · have hstep : rangeLoop fp tag hi (e :: kv) = [] := by
        simp only [rangeLoop]
        rw [if_neg (fun h => hp (List.isPrefixOf_iff_prefix.1 h))]
      rw [hstep]
      constructor
      · intro h; simp at h
      · rintro ⟨v, y, id', hm, hy, hk, hny⟩
        exfalso
        have hkp : fp <+: k := by
          rw [hk]; exact (List.prefix_append fp tag).trans (rkpre y id')
        rcases List.mem_cons.1 hm with hm | hm
        · apply hp; rw [← hm]; exact hkp
        · exact prefix_block (hge e (by simp)) hp (hs'.1 _ hm) hkp

/-- Range lookup over one of the two 16-byte encodings. `enc w = some x` says that `w` has the tag and
value part `x`. -/
theorem range_spec {cfg : StoreCfg} (hc : cfg.id.Ok) {kv : KV} {m : RecordMap} (h : Rel cfg kv m)
    {f : Bytes} (hs : FieldSep cfg.fields f) (tag lo hi : Bytes) (enc : MetaValue → Option Bytes)
    (ht : tag.length = 2) (hlo : lo.length = 16)
    (henc : ∀ w x, enc w = some x → encodeValue w = tag ++ x ∧ x.length = 16)
    (htag : ∀ w t, encodeValue w ++ t = tag ++ (encodeValue w ++ t).drop 2 → ∃ x, enc w = some x) :
    ∃ l, extractAll cfg.id (rangeLoop (fieldPrefix f) tag hi (kv.seek (fieldPrefix f ++ tag ++ lo))) = some l
      ∧ l.Nodup ∧ ∀ id, id ∈ l ↔ f ∈ cfg.fields ∧ ∃ r w, m.get id = some r ∧ r.metadata.get f = some w ∧
        ∃ x, enc w = some x ∧ ¬ x < lo ∧ ¬ hi < x := by
  have hkey : ∀ w x id, enc w = some x →
      fieldIndexKey f (encodeValue w) id = RangeKey (fieldPrefix f) tag x id := by
    intro w x id he
    rw [(henc w x he).1]; simp [fieldIndexKey, RangeKey, fieldPrefix]
  have hwf : ∀ e ∈ kv, fieldPrefix f ++ tag <+: e.1 →
      ∃ id r w x, m.get id = some r ∧ r.metadata.get f = some w ∧ enc w = some x ∧
        e.1 = fieldIndexKey f (encodeValue w) id := by
    intro e he hp
    have hfp : fieldPrefix f <+: e.1 := (List.prefix_append _ _).trans hp
    obtain ⟨hf, id, r, w, h1, h2, h3⟩ := (h.fieldKey_iff hs hfp).1 ⟨e.2, he⟩
    obtain ⟨t, ht'⟩ := hp
    have : ∃ x, enc w = some x := by
      apply htag w ([us] ++ decStr id)
      rw [h3] at ht'
      have h4 : tag ++ t = encodeValue w ++ ([us] ++ decStr id) := by
        have : fieldPrefix f ++ (tag ++ t) = fieldPrefix f ++ (encodeValue w ++ ([us] ++ decStr id)) := by
          rw [← List.append_assoc, ht']; simp [fieldIndexKey, fieldPrefix]
        exact List.append_cancel_left this
      rw [← h4, ← ht]; simp
    obtain ⟨x, hx⟩ := this
    exact ⟨id, r, w, x, h1, h2, hx, h3⟩
  have hsk := KV.seek_eq_filter h.sorted (fieldPrefix f ++ tag ++ lo)
  have hsorted : (kv.seek (fieldPrefix f ++ tag ++ lo)).Sorted := by
    rw [hsk]; exact List.Pairwise.sublist List.filter_sublist h.sorted
  have hge : ∀ e ∈ kv.seek (fieldPrefix f ++ tag ++ lo), ¬ e.1 < fieldPrefix f := by
    intro e he hlt
    rw [hsk, List.mem_filter] at he
    have h1 : ¬ e.1 < fieldPrefix f ++ tag ++ lo := by simpa using he.2
    apply h1
    have h2 : ¬ fieldPrefix f ++ tag ++ lo < fieldPrefix f :=
      not_lt_prefix ⟨tag ++ lo, by simp⟩
    exact blt_trans hlt (blt_of_not h2 (by
      intro he'
      have := congrArg List.length he'
      simp [hlo] at this))
  have hmem := mem_rangeLoop (hi := hi) ht _ hsorted hge (fun e he hp => by
    rw [hsk, List.mem_filter] at he
    obtain ⟨id, r, w, x, _, _, h3, h4⟩ := hwf e he.1 hp
    exact ⟨x, id, (henc w x h3).2, by rw [h4, hkey w x id h3]⟩)
  have rinj : ∀ x y i j, RangeKey (fieldPrefix f) tag x i = RangeKey (fieldPrefix f) tag y j → x = y := by
    intro x y i j he
    have h1 := rsplit_rangeKey (fieldPrefix f) tag x i
    rw [he, rsplit_rangeKey] at h1
    injection h1 with h1
    have h2 := congrArg Prod.fst h1
    simp only [List.append_assoc, List.append_cancel_left_eq] at h2
    exact h2.symm
  have hlt : ∀ x id, x.length = 16 →
      (¬ RangeKey (fieldPrefix f) tag x id < fieldPrefix f ++ tag ++ lo ↔ ¬ x < lo) := by
    intro x id hx
    unfold RangeKey
    simp only [List.append_assoc]
    rw [append_lt_append_left, append_lt_append_left]
    exact append_not_lt (by omega) _
  apply h.ids_of_keys hc hs
  · apply List.Nodup.sublist (rangeLoop_sublist _ _ _ _)
    exact sorted_keys_nodup hsorted
  · intro k
    rw [hmem]
    constructor
    · rintro ⟨v, x, id, h1, h2, h3, h4⟩
      rw [hsk, List.mem_filter] at h1
      have hp : fieldPrefix f ++ tag <+: k := by
        rw [h3]; exact ⟨x ++ [us] ++ decStr id, by simp [RangeKey]⟩
      refine ⟨(List.prefix_append _ _).trans hp, ⟨v, h1.1⟩, ?_⟩
      intro w id' he
      have hwx : ∃ y, enc w = some y := by
        apply htag w ([us] ++ decStr id')
        obtain ⟨t, ht'⟩ := hp
        rw [he] at ht'
        have h4 : tag ++ t = encodeValue w ++ ([us] ++ decStr id') := by
          have : fieldPrefix f ++ (tag ++ t) = fieldPrefix f ++ (encodeValue w ++ ([us] ++ decStr id')) := by
            rw [← List.append_assoc, ht']; simp [fieldIndexKey, fieldPrefix]
          exact List.append_cancel_left this
        rw [← h4, ← ht]; simp
      obtain ⟨y, hy⟩ := hwx
      have hxy : x = y := rinj _ _ _ _ (by rw [← h3, he, hkey w y id' hy])
      subst hxy
      refine ⟨x, hy, ?_, h4⟩
      rw [← hlt x id h2, ← h3]
      simpa using h1.2
    · rintro ⟨h1, ⟨v, h2⟩, h3⟩
      obtain ⟨hf, id, r, w, h4, h5, h6⟩ := (h.fieldKey_iff hs h1).1 ⟨v, h2⟩
      obtain ⟨x, hx, hx1, hx2⟩ := h3 w id h6
      refine ⟨v, x, id, ?_, (henc w x hx).2, by rw [h6, hkey w x id hx], hx2⟩
      rw [hsk, List.mem_filter]
      refine ⟨h2, ?_⟩
      have := (hlt x id (henc w x hx).2).2 hx1
      simp only [Bool.not_eq_true', decide_eq_false_iff_not]
      rw [h6, hkey w x id hx]
      exact this

theorem idsByIntRange_spec {cfg : StoreCfg} (hc : cfg.id.Ok) {kv : KV} {m : RecordMap} (h : Rel cfg kv m)
    {f : Bytes} (hs : FieldSep cfg.fields f) (lo hi : BitVec 64) :
    ∃ l, idsByIntRange cfg.id kv f lo hi = some l ∧ l.Nodup ∧
      ∀ id, id ∈ l ↔ f ∈ cfg.fields ∧ ∃ r x, m.get id = some r ∧ r.metadata.get f = some (.int x) ∧
        lo.toInt ≤ x.toInt ∧ x.toInt ≤ hi.toInt := by
  obtain ⟨l, h1, h2, h3⟩ := range_spec hc h hs [105, 95] (encodeInt64 lo) (encodeInt64 hi)
    (fun w => match w with | .int x => some (encodeInt64 x) | _ => none) rfl
    (C01_encode_int64_length lo)
    (by
      intro w x hw
      cases w with
      | int a =>
        simp only [Option.some.injEq] at hw; subst hw
        exact ⟨rfl, C01_encode_int64_length a⟩
      | double a => simp at hw
      | string a => simp at hw
      | bool a => simp at hw)
    (by
      intro w t hw
      cases w with
      | int a => exact ⟨_, rfl⟩
      | double a => simp [encodeValue] at hw
      | string a => simp [encodeValue] at hw
      | bool a => simp [encodeValue] at hw)
  refine ⟨l, h1, h2, ?_⟩
  intro id
  rw [h3]
  constructor
  · rintro ⟨hf, r, w, h4, h5, x, h6, h7, h8⟩
    cases w with
    | int a =>
      simp only [Option.some.injEq] at h6; subst h6
      have := (C01_range_iff lo hi a).1 ⟨h7, h8⟩
      exact ⟨hf, r, a, h4, h5, this⟩
    | double a => simp at h6
    | string a => simp at h6
    | bool a => simp at h6
  · rintro ⟨hf, r, a, h4, h5, h6⟩
    have := (C01_range_iff lo hi a).2 h6
    exact ⟨hf, r, _, h4, h5, _, rfl, this⟩

theorem idsByDoubleRange_spec {cfg : StoreCfg} (hc : cfg.id.Ok) {kv : KV} {m : RecordMap} (h : Rel cfg kv m)
    {f : Bytes} (hs : FieldSep cfg.fields f) (lo hi : BitVec 64) :
    ∃ l, idsByDoubleRange cfg.id kv f lo hi = some l ∧ l.Nodup ∧
      ∀ id, id ∈ l ↔ f ∈ cfg.fields ∧ ∃ r x, m.get id = some r ∧ r.metadata.get f = some (.double x) ∧
        ¬ encodeDouble x < encodeDouble lo ∧ ¬ encodeDouble hi < encodeDouble x := by
  obtain ⟨l, h1, h2, h3⟩ := range_spec hc h hs [100, 95] (encodeDouble lo) (encodeDouble hi)
    (fun w => match w with | .double x => some (encodeDouble x) | _ => none) rfl
    (C02_encode_double_length lo)
    (by
      intro w x hw
      cases w with
      | double a =>
        simp only [Option.some.injEq] at hw; subst hw
        exact ⟨rfl, C02_encode_double_length a⟩
      | int a => simp at hw
      | string a => simp at hw
      | bool a => simp at hw)
    (by
      intro w t hw
      cases w with
      | double a => exact ⟨_, rfl⟩
      | int a => simp [encodeValue] at hw
      | string a => simp [encodeValue] at hw
      | bool a => simp [encodeValue] at hw)
  refine ⟨l, h1, h2, ?_⟩
  intro id
  rw [h3]
  constructor
  · rintro ⟨hf, r, w, h4, h5, x, h6, h7, h8⟩
    cases w with
    | double a =>
      simp only [Option.some.injEq] at h6; subst h6
      exact ⟨hf, r, a, h4, h5, h7, h8⟩
    | int a => simp at h6
    | string a => simp at h6
    | bool a => simp at h6
  · rintro ⟨hf, r, a, h4, h5, h6, h7⟩
    exact ⟨hf, r, _, h4, h5, _, rfl, h6, h7⟩

end Alaya
