import Verif.Model.ShardMerge
import Verif.Lemmas.VamanaFile

namespace Alaya.Vamana

/-- A shard: the global ids of its nodes in local order, the local adjacency lists, and the header values. -/
structure Shard where
  ids : List Nat
  adj : List (List Nat)
  degree : Nat
  start : Nat
  frozen : Nat
  deriving DecidableEq, Repr

/-- What the assigner and the shard build guarantee: strictly ascending ids, one adjacency list per id, local neighbours
in range, start in range, and everything within the file's field types. -/
structure ShardOk (s : Shard) : Prop where
  asc : s.ids.Pairwise (· < ·)
  small : ∀ g ∈ s.ids, g < 2 ^ 32 - 1
  count : s.ids.length < 2 ^ 32
  adjLen : s.adj.length = s.ids.length
  deg : ∀ a ∈ s.adj, a.length < 2 ^ 32
  nbrs : ∀ a ∈ s.adj, ∀ l ∈ a, l < s.ids.length
  startOk : s.start < s.ids.length

/-- Global node `g` has an edge to `x` in shard `s`. -/
def EdgeIn (s : Shard) (g x : Nat) : Prop :=
  ∃ (i : Nat) (a : List Nat) (l : Nat), s.ids[i]? = some g ∧ s.adj[i]? = some a ∧ l ∈ a ∧ s.ids[l]? = some x ∧ x ≠ g

theorem ShardOk.recOk {s : Shard} (h : ShardOk s) : ∀ a ∈ s.adj, RecOk a := fun a ha =>
  ⟨h.deg a ha, fun x hx => by have := h.nbrs a ha x hx; have := h.count; omega⟩

theorem asc_getElem? {l : List Nat} (h : l.Pairwise (· < ·)) {i j x y : Nat} (hij : i < j) (hx : l[i]? = some x)
    (hy : l[j]? = some y) : x < y := by
  obtain ⟨hi, rfl⟩ := List.getElem?_eq_some_iff.mp hx
  obtain ⟨hj, rfl⟩ := List.getElem?_eq_some_iff.mp hy
  exact List.pairwise_iff_getElem.mp h i j hi hj hij

theorem isSorted_of_asc (l : List Nat) (h : l.Pairwise (· < ·)) : isSorted l = true := by
  induction l with
  | nil => rfl
  | cons a l ih =>
    cases l with
    | nil => rfl
    | cons b l =>
      rw [isSorted, ih (List.pairwise_cons.mp h).2]
      have := (List.pairwise_cons.mp h).1 b List.mem_cons_self
      simp only [Bool.and_true, decide_eq_true_eq]
      omega

theorem readIdmap_file (ids : List Nat) (hc : ids.length < 2 ^ 32) (h : ∀ x ∈ ids, x < 2 ^ 32) :
    readIdmap (idmapFile ids) = some ids := by
  have p4 : (256 : Nat) ^ 4 = 2 ^ 32 := by decide
  have e : idmapFile ids = leBytes 4 ids.length ++ (leBytes 4 1 ++ encU32s ids) := by
    unfold idmapFile; rw [List.append_assoc]
  have d4 : (idmapFile ids).drop 4 = leBytes 4 1 ++ encU32s ids := by rw [e, List.drop_left' (leBytes_length 4 _)]
  have d8 : (idmapFile ids).drop 8 = encU32s ids := by
    rw [show (8 : Nat) = 4 + 4 from rfl, ← List.drop_drop, d4, List.drop_left' (leBytes_length 4 _)]
  have t4 : leNat ((idmapFile ids).take 4) = ids.length := by
    rw [e, List.take_left' (leBytes_length 4 _), leNat_leBytes_of_lt (by rw [p4]; exact hc)]
  have t1 : leNat (((idmapFile ids).drop 4).take 4) = 1 := by
    rw [d4, List.take_left' (leBytes_length 4 _), leNat_leBytes_of_lt (by decide)]
  have hlen : (idmapFile ids).length = 8 + 4 * ids.length := by
    rw [e]; simp only [List.length_append, leBytes_length, encU32s_length]; omega
  unfold readIdmap
  simp only [t4, t1, d8]
  rw [if_neg (by omega), if_neg (by simp), if_neg (by rw [encU32s_length]; omega)]
  have := decU32s_enc ids h []
  rw [List.append_nil] at this
  rw [this]

theorem loadIdmaps_files (ss : List Shard) (h : ∀ s ∈ ss, ShardOk s) :
    loadIdmaps (ss.map fun s => idmapFile s.ids) = some (ss.map (·.ids)) := by
  induction ss with
  | nil => rfl
  | cons s ss ih =>
    have hs := h s List.mem_cons_self
    rw [List.map_cons, loadIdmaps, readIdmap_file s.ids hs.count (fun x hx => by have := hs.small x hx; omega)]
    simp only
    rw [isSorted_of_asc _ hs.asc, if_pos rfl, ih (fun t ht => h t (List.mem_cons_of_mem _ ht))]
    rfl

theorem foldl_max_le (l : List Nat) (m : Nat) : m ≤ l.foldl max m ∧ ∀ x ∈ l, x ≤ l.foldl max m := by
  induction l generalizing m with
  | nil => simp
  | cons a l ih =>
    obtain ⟨h1, h2⟩ := ih (max m a)
    rw [List.foldl_cons]
    refine ⟨by omega, fun x hx => ?_⟩
    rcases List.mem_cons.mp hx with rfl | hx
    · omega
    · exact h2 x hx

theorem foldl_max_mem (l : List Nat) (m : Nat) : l.foldl max m = m ∨ l.foldl max m ∈ l := by
  induction l generalizing m with
  | nil => simp
  | cons a l ih =>
    rw [List.foldl_cons]
    rcases ih (max m a) with h | h
    · rw [h]
      rcases Nat.le_total m a with hm | hm
      · right; rw [Nat.max_eq_right hm]; exact List.mem_cons_self
      · left; omega
    · right; exact List.mem_cons_of_mem _ h

/-- The file of a shard graph. -/
def Shard.graph (s : Shard) : Bytes := saveGraph s.adj s.degree s.start s.frozen

theorem openShard_file (s : Shard) (h : ShardOk s) :
    ∃ m, s.ids[s.start]? = some m ∧ openShard s.ids s.graph = some (⟨s.ids, 0, s.adj.flatMap encRec⟩, m) := by
  obtain ⟨f1, _, _, f4, _, f6⟩ := graphFile_fields s.adj s.degree s.start s.frozen
  have p4 : (256 : Nat) ^ 4 = 2 ^ 32 := by decide
  refine ⟨s.ids[s.start]'h.startOk, List.getElem?_eq_getElem _, ?_⟩
  unfold openShard Shard.graph saveGraph
  rw [if_neg (by rw [f1]; omega), f4, f6, leNat_leBytes_of_lt (by
    rw [p4]; have := h.startOk; have := h.count; omega), List.getElem?_eq_getElem h.startOk]

/-- The cursor of a shard before node `gid` is handled. -/
structure Inv (gid : Nat) (s : Shard) (r : Rd) : Prop where
  map : r.idmap = s.ids
  past : ∀ (i x : Nat), i < r.cursor → s.ids[i]? = some x → x < gid
  next : ∀ (i x : Nat), r.cursor ≤ i → s.ids[i]? = some x → gid ≤ x
  rest : r.rest = (s.adj.drop r.cursor).flatMap encRec

/-- Pointwise invariant. -/
inductive Invs (gid : Nat) : List Shard → List Rd → Prop
  | nil : Invs gid [] []
  | cons {s r ss rs} : Inv gid s r → Invs gid ss rs → Invs gid (s :: ss) (r :: rs)

theorem openAll_files (ss : List Shard) (h : ∀ s ∈ ss, ShardOk s) :
    ∃ rs ms, openAll (ss.map (·.ids)) (ss.map (·.graph)) = some (rs, ms) ∧ Invs 0 ss rs ∧
      ms.map some = ss.map fun s => s.ids[s.start]? := by
  induction ss with
  | nil => exact ⟨[], [], rfl, .nil, rfl⟩
  | cons s ss ih =>
    obtain ⟨rs, ms, h1, h2, h3⟩ := ih (fun t ht => h t (List.mem_cons_of_mem _ ht))
    obtain ⟨m, hm, ho⟩ := openShard_file s (h s List.mem_cons_self)
    refine ⟨⟨s.ids, 0, s.adj.flatMap encRec⟩ :: rs, m :: ms, ?_, .cons ⟨rfl, ?_, ?_, ?_⟩ h2, ?_⟩
    · rw [List.map_cons, List.map_cons, openAll, ho]
      simp only [h1, Option.map_some]
    · intro i x hi; exact absurd hi (by simp)
    · intro i x _ _; omega
    · rw [List.drop_zero]
    · rw [List.map_cons, List.map_cons, h3, hm]

theorem addNbrs_spec (gid : Nat) (ids ls nh : List Nat) (hl : ∀ l ∈ ls, l < ids.length) (hn : nh.Nodup) :
    ∃ nh', addNbrs gid ids ls nh = some nh' ∧ nh'.Nodup ∧
      ∀ x, x ∈ nh' ↔ x ∈ nh ∨ ∃ l ∈ ls, ids[l]? = some x ∧ x ≠ gid := by
  induction ls generalizing nh with
  | nil => exact ⟨nh, rfl, hn, by simp⟩
  | cons l ls ih =>
    have hll := hl l List.mem_cons_self
    have hl' := fun k hk => hl k (List.mem_cons_of_mem l hk)
    rw [addNbrs, List.getElem?_eq_getElem hll]
    simp only
    by_cases hg : ids[l] = gid
    · rw [if_pos hg]
      obtain ⟨nh', h1, h2, h3⟩ := ih nh hl' hn
      refine ⟨nh', h1, h2, fun x => ?_⟩
      rw [h3]
      constructor
      · rintro (h | ⟨k, hk, hx⟩)
        · exact .inl h
        · exact .inr ⟨k, List.mem_cons_of_mem _ hk, hx⟩
      · rintro (h | ⟨k, hk, hx, hne⟩)
        · exact .inl h
        · rcases List.mem_cons.mp hk with rfl | hk
          · rw [List.getElem?_eq_getElem hll] at hx
            cases hx; exact absurd hg hne
          · exact .inr ⟨k, hk, hx, hne⟩
    · rw [if_neg hg]
      by_cases hc : nh.contains ids[l] = true
      · rw [if_pos hc]
        obtain ⟨nh', h1, h2, h3⟩ := ih nh hl' hn
        refine ⟨nh', h1, h2, fun x => ?_⟩
        rw [h3]
        constructor
        · rintro (h | ⟨k, hk, hx⟩)
          · exact .inl h
          · exact .inr ⟨k, List.mem_cons_of_mem _ hk, hx⟩
        · rintro (h | ⟨k, hk, hx, hne⟩)
          · exact .inl h
          · rcases List.mem_cons.mp hk with rfl | hk
            · rw [List.getElem?_eq_getElem hll] at hx
              cases hx; exact .inl (List.contains_iff_mem.mp hc)
            · exact .inr ⟨k, hk, hx, hne⟩
      · rw [if_neg hc]
        have hnm : ids[l] ∉ nh := fun h => hc (List.contains_iff_mem.mpr h)
        have hn' : (nh ++ [ids[l]]).Nodup := by
          rw [List.nodup_append]
          refine ⟨hn, by simp, ?_⟩
          intro a ha b hb
          rw [List.mem_singleton] at hb
          subst hb
          intro e; subst e; exact hnm ha
        obtain ⟨nh', h1, h2, h3⟩ := ih _ hl' hn'
        refine ⟨nh', h1, h2, fun x => ?_⟩
        rw [h3, List.mem_append, List.mem_singleton]
        constructor
        · rintro ((h | rfl) | ⟨k, hk, hx⟩)
          · exact .inl h
          · exact .inr ⟨l, List.mem_cons_self, List.getElem?_eq_getElem hll, hg⟩
          · exact .inr ⟨k, List.mem_cons_of_mem _ hk, hx⟩
        · rintro (h | ⟨k, hk, hx, hne⟩)
          · exact .inl (.inl h)
          · rcases List.mem_cons.mp hk with rfl | hk
            · rw [List.getElem?_eq_getElem hll] at hx
              cases hx; exact .inl (.inr rfl)
            · exact .inr ⟨k, hk, hx, hne⟩

theorem stepShard_spec (gid : Nat) (s : Shard) (hs : ShardOk s) (r : Rd) (hi : Inv gid s r) (nh : List Nat)
    (hn : nh.Nodup) : ∃ r' nh', stepShard gid r nh = some (r', nh') ∧ Inv (gid + 1) s r' ∧ nh'.Nodup ∧
      ∀ x, x ∈ nh' ↔ x ∈ nh ∨ EdgeIn s gid x := by
  obtain ⟨hm, hp, hx, hr⟩ := hi
  unfold stepShard
  rw [hm]
  cases hc : s.ids[r.cursor]? with
  | none =>
    refine ⟨r, nh, rfl, ⟨hm, fun i x h1 h2 => by have := hp i x h1 h2; omega, fun i x h1 h2 => ?_, hr⟩, hn, fun x => ?_⟩
    · have h3 := List.getElem?_eq_none_iff.mp hc
      have h4 := (List.getElem?_eq_some_iff.mp h2).1
      omega
    · constructor
      · exact .inl
      · rintro (h | ⟨i, a, l, hg, _⟩)
        · exact h
        · have h3 := List.getElem?_eq_none_iff.mp hc
          have h4 := (List.getElem?_eq_some_iff.mp hg).1
          have := hp i gid (by omega) hg
          omega
  | some g =>
    simp only
    by_cases hg : g ≠ gid
    · rw [if_pos hg]
      have hgx := hx r.cursor g (Nat.le_refl _) hc
      refine ⟨r, nh, rfl, ⟨hm, fun i x h1 h2 => by have := hp i x h1 h2; omega, fun i x h1 h2 => ?_, hr⟩, hn,
        fun x => ?_⟩
      · rcases Nat.eq_or_lt_of_le h1 with e | e
        · subst e; rw [hc] at h2; cases h2; omega
        · have := asc_getElem? hs.asc e hc h2; omega
      · constructor
        · exact .inl
        · rintro (h | ⟨i, a, l, hi, _⟩)
          · exact h
          · rcases Nat.lt_trichotomy i r.cursor with e | e | e
            · have := hp i gid e hi; omega
            · subst e; rw [hc] at hi; cases hi; omega
            · have := asc_getElem? hs.asc e hc hi; omega
    · rw [if_neg hg]
      have hg : g = gid := by omega
      subst hg
      have hcl : r.cursor < s.ids.length := (List.getElem?_eq_some_iff.mp hc).1
      have hcl' : r.cursor < s.adj.length := by rw [hs.adjLen]; exact hcl
      have hmem : s.adj[r.cursor] ∈ s.adj := List.getElem_mem hcl'
      have hdrop : r.rest = encRec s.adj[r.cursor] ++ (s.adj.drop (r.cursor + 1)).flatMap encRec := by
        rw [hr, List.drop_eq_getElem_cons hcl', List.flatMap_cons]
      obtain ⟨e1, e2⟩ := encRec_take (hs.deg _ hmem) ((s.adj.drop (r.cursor + 1)).flatMap encRec)
      rw [if_neg (by rw [hdrop, List.length_append, encRec_length (hs.deg _ hmem)]; omega)]
      simp only [hdrop, e1, e2]
      rw [decU32s_enc _ (hs.recOk _ hmem).2, List.drop_left' (encU32s_length _)]
      obtain ⟨nh', h1, h2, h3⟩ := addNbrs_spec g s.ids s.adj[r.cursor] nh (hs.nbrs _ hmem) hn
      rw [h1]
      refine ⟨_, _, rfl, ⟨rfl, ?_, ?_, rfl⟩, h2, fun x => ?_⟩
      · intro i x h4 h5
        rcases Nat.lt_or_eq_of_le (Nat.lt_succ_iff.mp h4) with e | e
        · have := hp i x e h5; omega
        · subst e; rw [hc] at h5; cases h5; omega
      · intro i x h4 h5
        have := asc_getElem? hs.asc (Nat.lt_of_succ_le h4) hc h5
        omega
      · rw [h3]
        constructor
        · rintro (h | ⟨l, hl, hx⟩)
          · exact .inl h
          · exact .inr ⟨r.cursor, _, l, hc, List.getElem?_eq_getElem hcl', hl, hx⟩
        · rintro (h | ⟨i, a, l, hi, ha, hl, hx⟩)
          · exact .inl h
          · have : i = r.cursor := by
              rcases Nat.lt_trichotomy i r.cursor with e | e | e
              · have := asc_getElem? hs.asc e hi hc; omega
              · exact e
              · have := asc_getElem? hs.asc e hc hi; omega
            subst this
            rw [List.getElem?_eq_getElem hcl'] at ha
            cases ha
            exact .inr ⟨l, hl, hx⟩

/-- Global edges. -/
def Edge (ss : List Shard) (g x : Nat) : Prop := ∃ s ∈ ss, EdgeIn s g x

theorem stepAll_spec (gid : Nat) (ss : List Shard) (hs : ∀ s ∈ ss, ShardOk s) (rs : List Rd) (hi : Invs gid ss rs)
    (nh : List Nat) (hn : nh.Nodup) : ∃ rs' nh', stepAll gid rs nh = some (rs', nh') ∧ Invs (gid + 1) ss rs' ∧
      nh'.Nodup ∧ ∀ x, x ∈ nh' ↔ x ∈ nh ∨ Edge ss gid x := by
  induction hi generalizing nh with
  | nil => exact ⟨[], nh, rfl, .nil, hn, by simp [Edge]⟩
  | @cons s r ss rs h1 _ ih =>
    obtain ⟨r', nh1, a1, a2, a3, a4⟩ := stepShard_spec gid s (hs s List.mem_cons_self) r h1 nh hn
    obtain ⟨rs', nh2, b1, b2, b3, b4⟩ := ih (fun t ht => hs t (List.mem_cons_of_mem _ ht)) nh1 a3
    refine ⟨r' :: rs', nh2, ?_, .cons a2 b2, b3, fun x => ?_⟩
    · rw [stepAll, a1]; simp only [b1]
    · rw [b4, a4, or_assoc]
      unfold Edge
      simp only [List.mem_cons, exists_eq_or_imp]

/-- What one output record must satisfy. -/
structure RecGood (ss : List Shard) (R g : Nat) (a : List Nat) : Prop where
  nodup : a.Nodup
  le : a.length ≤ R
  edge : ∀ x ∈ a, Edge ss g x
  full : ∀ u : List Nat, u.Nodup → (∀ x, x ∈ u ↔ Edge ss g x) → a.length = min R u.length ∧ (u.length ≤ R → a.Perm u)

theorem perm_of_nodup_iff {a b : List Nat} (ha : a.Nodup) (hb : b.Nodup) (h : ∀ x, x ∈ a ↔ x ∈ b) : a.Perm b := by
  rw [List.perm_iff_count]
  intro x
  rw [List.Nodup.count ha, List.Nodup.count hb]
  simp only [h x]

theorem recGood_of (ss : List Shard) (σ : Nat → List Nat → List Nat) (hσ : ∀ g l, (σ g l).Perm l) (R g : Nat)
    (nh : List Nat) (hn : nh.Nodup) (hm : ∀ x, x ∈ nh ↔ Edge ss g x) : RecGood ss R g ((σ g nh).take R) := by
  have hp := hσ g nh
  refine ⟨(hp.nodup_iff.mpr hn).sublist (List.take_sublist _ _), by rw [List.length_take]; exact Nat.min_le_left _ _,
    fun x hx => (hm x).mp (hp.mem_iff.mp (List.mem_of_mem_take hx)), fun u hu hux => ?_⟩
  have hpu : nh.Perm u := perm_of_nodup_iff hn hu (fun x => by rw [hm, hux])
  refine ⟨by rw [List.length_take, hp.length_eq, hpu.length_eq], fun hl => ?_⟩
  rw [List.take_of_length_le (by rw [hp.length_eq, hpu.length_eq]; exact hl)]
  exact hp.trans hpu

theorem mergeLoop_spec (ss : List Shard) (hs : ∀ s ∈ ss, ShardOk s) (σ : Nat → List Nat → List Nat)
    (hσ : ∀ g l, (σ g l).Perm l) (R : Nat) (n gid : Nat) (rs : List Rd) (hi : Invs gid ss rs) :
    ∃ out, mergeLoop σ R n gid rs = some out ∧ out.length = n ∧
      ∀ (g : Nat) (a : List Nat), out[g]? = some a → RecGood ss R (gid + g) a := by
  induction n generalizing gid rs with
  | zero => exact ⟨[], rfl, rfl, by simp⟩
  | succ n ih =>
    obtain ⟨rs', nh, h1, h2, h3, h4⟩ := stepAll_spec gid ss hs rs hi [] List.nodup_nil
    obtain ⟨out, o1, o2, o3⟩ := ih (gid + 1) rs' h2
    refine ⟨(σ gid nh).take R :: out, ?_, by rw [List.length_cons, o2], ?_⟩
    · rw [mergeLoop, h1]; simp only [o1, Option.map_some]
    · intro g a hg
      cases g with
      | zero =>
        simp only [List.getElem?_cons_zero, Option.some.injEq] at hg
        subst hg
        exact recGood_of ss σ hσ R gid nh h3 (fun x => by rw [h4]; simp)
      | succ g =>
        simp only [List.getElem?_cons_succ] at hg
        have := o3 g a hg
        rwa [show gid + 1 + g = gid + (g + 1) by omega] at this

end Alaya.Vamana
