import Verif.Lemmas.NodeCache

namespace Alaya.NodeCache
open Alaya.DiskLayout Alaya.DiskPages Alaya.DiskNodes
open Alaya.DiskSlots (Out)
open Alaya.Seq (slice)

/-! ### Positions -/

theorem indexIds_not {L : Nat} {id : Nat} : ∀ (ids : List Nat) (i : Nat) (m : List (Nat × Nat)), id ∉ ids →
    assoc id (indexIds L ids i m) = assoc id m
  | [], _, _, _ => rfl
  | x :: rest, i, m, h => by
    unfold indexIds
    rw [indexIds_not rest _ _ (fun e => h (List.mem_cons_of_mem _ e)), assoc, if_neg (fun e => h (by rw [← e]; exact List.mem_cons_self))]

theorem indexIds_get {L : Nat} {id : Nat} : ∀ (ids : List Nat) (i k : Nat) (m : List (Nat × Nat)), ids.Nodup → ids[k]? = some id →
    assoc id (indexIds L ids i m) = some ((i + k) * L)
  | [], _, _, _, _, h => by simp at h
  | x :: rest, i, 0, m, hn, h => by
    unfold indexIds
    simp only [List.getElem?_cons_zero, Option.some.injEq] at h
    subst h
    rw [indexIds_not _ _ _ (List.nodup_cons.1 hn).1, assoc, if_pos rfl, Nat.add_zero]
  | x :: rest, i, k + 1, m, hn, h => by
    unfold indexIds
    simp only [List.getElem?_cons_succ] at h
    rw [indexIds_get rest (i + 1) k _ (List.nodup_cons.1 hn).2 h]
    congr 2; omega

theorem flatten_rec {L : Nat} : ∀ (rs : List Bytes) (k : Nat) (r : Bytes), (∀ x ∈ rs, x.length = L) → rs[k]? = some r →
    rec rs.flatten (k * L) L = r ∧ k * L + L ≤ rs.flatten.length
  | [], _, _, _, h => by simp at h
  | x :: rest, 0, r, hl, h => by
    simp only [List.getElem?_cons_zero, Option.some.injEq] at h
    subst h
    have hx := hl x List.mem_cons_self
    unfold rec
    rw [List.flatten_cons, Nat.zero_mul, List.drop_zero, List.take_append_of_le_length (by omega), List.take_of_length_le (by omega)]
    refine ⟨rfl, ?_⟩
    rw [List.length_append]; omega
  | x :: rest, k + 1, r, hl, h => by
    have hx := hl x List.mem_cons_self
    simp only [List.getElem?_cons_succ] at h
    obtain ⟨h1, h2⟩ := flatten_rec rest k r (fun y hy => hl y (List.mem_cons_of_mem _ hy)) h
    have e : (k + 1) * L = x.length + k * L := by rw [Nat.succ_mul, hx]; omega
    refine ⟨?_, ?_⟩
    · rw [← h1]
      unfold rec
      rw [List.flatten_cons, e, ← List.drop_drop, List.drop_append_of_le_length (Nat.le_refl _), List.drop_of_length_le (l := x) (Nat.le_refl _),
        List.nil_append]
    · rw [List.flatten_cons, List.length_append, e]; omega

theorem getIds_flatMap (tl : Bytes) : ∀ (ids : List Nat), (∀ x ∈ ids, x < 2 ^ 32) → getIds ids.length (ids.flatMap (leBytes 4) ++ tl) = ids
  | [], _ => rfl
  | x :: rest, h => by
    rw [List.length_cons, List.flatMap_cons, List.append_assoc]
    unfold getIds
    have hl : (leBytes 4 x).length = 4 := leBytes_length 4 x
    rw [List.take_append_of_le_length (by omega), List.take_of_length_le (by omega), List.drop_append_of_le_length (by omega),
      List.drop_of_length_le (l := leBytes 4 x) (by omega), List.nil_append, getIds_flatMap tl rest (fun y hy => h y (List.mem_cons_of_mem _ hy)),
      leNat_leBytes_of_lt (by have := h x List.mem_cons_self; omega)]

theorem flatMap4_length (ids : List Nat) : (ids.flatMap (leBytes 4)).length = ids.length * 4 := by
  induction ids with
  | nil => rfl
  | cons x rest ih => rw [List.flatMap_cons, List.length_append, ih, leBytes_length, List.length_cons]; omega

/-! ### Sorting -/

theorem insertId_perm (x : Nat) : ∀ l, (insertId x l).Perm (x :: l)
  | [] => List.Perm.refl _
  | y :: ys => by
    unfold insertId
    split
    · exact List.Perm.refl _
    · exact ((insertId_perm x ys).cons y).trans (List.Perm.swap x y ys)

theorem sortIds_perm : ∀ l, (sortIds l).Perm l
  | [] => List.Perm.refl _
  | x :: xs => (insertId_perm x _).trans ((sortIds_perm xs).cons x)

theorem savedIds_mem {g : Geom} {dim deg : Nat} {c : NCache} {m : Nat → Rec} (h : CacheInv g dim deg c m) (id : Nat) :
    id ∈ c.savedIds ↔ c.lookup id ≠ .ok none := by
  rw [Ne, lookup_none_iff h]
  unfold NCache.savedIds
  rw [List.mem_append, (sortIds_perm _).mem_iff, List.mem_filter, h.idsMap, ← assoc_isSome]
  cases e1 : assoc id c.over <;> cases e2 : assoc id c.map <;> simp

theorem savedIds_nodup {g : Geom} {dim deg : Nat} {c : NCache} {m : Nat → Rec} (h : CacheInv g dim deg c m) : c.savedIds.Nodup := by
  unfold NCache.savedIds
  refine List.nodup_append.2 ⟨h.idsNd, ?_, ?_⟩
  · exact (sortIds_perm _).nodup_iff.2 (h.keys.sublist List.filter_sublist)
  · intro a ha b hb e
    subst e
    rw [(sortIds_perm _).mem_iff, List.mem_filter] at hb
    have := (h.idsMap a).1 ha
    cases e2 : assoc a c.map with
    | none => rw [e2] at this; cases this
    | some o => rw [e2] at hb; simp at hb

theorem savedIds_lt {g : Geom} {dim deg : Nat} {c : NCache} {m : Nat → Rec} (h : CacheInv g dim deg c m) {id : Nat} (hid : id ∈ c.savedIds) :
    id < 2 ^ 32 ∧ g.Addressable id := by
  rw [savedIds_mem h, Ne, lookup_none_iff h] at hid
  cases e1 : assoc id c.over with
  | some r => exact ⟨(h.over id r e1).2.2.2, (h.over id r e1).2.2.1⟩
  | none =>
    cases e2 : assoc id c.map with
    | some off => exact ⟨(h.base id off e2).2.2.1, (h.base id off e2).2.1⟩
    | none => exact absurd ⟨e1, e2⟩ hid

theorem records_spec {g : Geom} {dim deg : Nat} {c : NCache} {m : Nat → Rec} (h : CacheInv g dim deg c m) : ∀ (ids : List Nat),
    (∀ id ∈ ids, c.lookup id ≠ .ok none) → ∃ rs, c.records ids = .ok rs ∧ rs.length = ids.length ∧ (∀ x ∈ rs, x.length = g.nodeLen) ∧
      ∀ (k id : Nat), ids[k]? = some id → ∃ r, rs[k]? = some r ∧ c.lookup id = .ok (some r)
  | [], _ => ⟨[], rfl, rfl, (by simp), by simp⟩
  | id :: rest, hm => by
    obtain ⟨rs, e, l, hl, hk⟩ := records_spec h rest (fun x hx => hm x (List.mem_cons_of_mem _ hx))
    have hs := lookup_spec h id
    have hne := hm id List.mem_cons_self
    unfold NCache.records
    cases el : c.lookup id with
    | ub => rw [el] at hs; exact hs.elim
    | throws => rw [el] at hs; exact hs.elim
    | ok o =>
      cases o with
      | none => exact absurd el hne
      | some r =>
        rw [el] at hs
        have ht : r.take c.nodeLen = r := List.take_of_length_le (by rw [h.hlen]; omega)
        simp only
        rw [e]
        refine ⟨_, rfl, by simp [l], ?_, ?_⟩
        · intro x hx
          rcases List.mem_cons.1 hx with hx | hx
          · rw [hx, ht]; exact hs.1
          · exact hl x hx
        · intro k id' hk'
          cases k with
          | zero =>
            simp only [List.getElem?_cons_zero, Option.some.injEq] at hk'
            subst hk'
            exact ⟨r, by simp [ht], el⟩
          | succ k =>
            simp only [List.getElem?_cons_succ] at hk' ⊢
            exact hk k id' hk'

/-- Save, then load: the same record for every node. -/
theorem save_load {g : Geom} {dim deg : Nat} (hg : compute dim deg = .ok g) {c : NCache} {m : Nat → Rec}
    (h : CacheInv g dim deg c m) (hsz : c.savedIds.length * g.nodeLen < 2 ^ 64) (hcnt : c.savedIds.length < 2 ^ 64) (hnl : g.nodeLen < 2 ^ 64) :
    ∃ fi fn c', c.save = .ok (fi, fn) ∧ load fi fn dim deg = .ok c' ∧ CacheInv g dim deg c' m ∧ (∀ id, c'.lookup id = c.lookup id) ∧
      c'.ids = c.savedIds := by
  obtain ⟨rs, e, l, hl, hk⟩ := records_spec h c.savedIds (fun id hid => (savedIds_mem h id).1 hid)
  have hnd := savedIds_nodup h
  have hrl : rs.flatten.length = rs.length * g.nodeLen := by
    have : ∀ rs : List Bytes, (∀ x ∈ rs, x.length = g.nodeLen) → rs.flatten.length = rs.length * g.nodeLen := by
      intro rs
      induction rs with
      | nil => simp
      | cons x rest ih =>
        intro hh
        rw [List.flatten_cons, List.length_append, ih (fun y hy => hh y (List.mem_cons_of_mem _ hy)), hh x List.mem_cons_self, List.length_cons,
          Nat.succ_mul]
        omega
    exact this rs hl
  have hsave : c.save = .ok (leBytes 8 c.savedIds.length ++ c.savedIds.flatMap (leBytes 4),
      leBytes 8 c.savedIds.length ++ (leBytes 8 c.nodeLen ++ rs.flatten)) := by
    unfold NCache.save
    simp only [e]
  have hlook : ∀ id, id ∉ c.savedIds → c.lookup id = .ok none := by
    intro id hid
    rw [savedIds_mem h] at hid
    exact Classical.byContradiction hid
  have hget : ∀ id, id ∈ c.savedIds → ∃ (k : Nat) (r : Bytes), c.savedIds[k]? = some id ∧ rs[k]? = some r ∧ c.lookup id = .ok (some r) := by
    intro id hid
    obtain ⟨k, hk'⟩ := List.getElem?_of_mem hid
    obtain ⟨r, h1, h2⟩ := hk k id hk'
    exact ⟨k, r, hk', h1, h2⟩
  have hload : load (leBytes 8 c.savedIds.length ++ c.savedIds.flatMap (leBytes 4)) (leBytes 8 c.savedIds.length ++ (leBytes 8 c.nodeLen ++ rs.flatten))
      dim deg = .ok ⟨dim, deg, g.nodeLen, c.savedIds, rs.flatten, indexIds g.nodeLen c.savedIds 0 [], []⟩ := by
    unfold load
    have l8 : ∀ n, (leBytes 8 n).length = 8 := leBytes_length 8
    have t1 : ∀ n (tl : Bytes), (leBytes 8 n ++ tl).take 8 = leBytes 8 n := by
      intro n tl
      rw [List.take_append_of_le_length (by rw [l8]; omega), List.take_of_length_le (by rw [l8]; omega)]
    have d1 : ∀ n (tl : Bytes), (leBytes 8 n ++ tl).drop 8 = tl := by
      intro n tl
      rw [List.drop_append_of_le_length (by rw [l8]; omega), List.drop_of_length_le (l := leBytes 8 n) (by rw [l8]; omega), List.nil_append]
    have n1 : leNat (leBytes 8 c.savedIds.length) = c.savedIds.length := leNat_leBytes_of_lt (by omega)
    have n2 : leNat (leBytes 8 c.nodeLen) = g.nodeLen := by rw [h.hlen]; exact leNat_leBytes_of_lt (by omega)
    have d16 : (leBytes 8 c.savedIds.length ++ (leBytes 8 c.nodeLen ++ rs.flatten)).drop 16 = rs.flatten := by
      rw [show (16 : Nat) = 8 + 8 from rfl, ← List.drop_drop, d1, d1]
    have hU : c.savedIds.length * g.nodeLen % U64 = c.savedIds.length * g.nodeLen := by rw [U64_eq]; exact Nat.mod_eq_of_lt hsz
    rw [if_neg (by rw [List.length_append, l8]; omega)]
    simp only [t1, d1, n1, n2, d16]
    rw [if_neg (by rw [flatMap4_length]; omega), if_neg (by rw [List.length_append, List.length_append, l8, l8]; omega), if_neg (by simp), hU,
      if_neg (by rw [hrl, l]; omega), hg]
    simp only
    rw [if_neg (by simp)]
    have hgi := getIds_flatMap [] c.savedIds (fun x hx => (savedIds_lt h hx).1)
    rw [List.append_nil] at hgi
    rw [hgi, List.take_of_length_le (by rw [hrl, l]; omega)]
  have hlk : ∀ id, (NCache.mk dim deg g.nodeLen c.savedIds rs.flatten (indexIds g.nodeLen c.savedIds 0 []) []).lookup id = c.lookup id := by
    intro id
    rw [NCache.lookup]
    unfold NCache.base
    simp only [assoc]
    by_cases hid : id ∈ c.savedIds
    · obtain ⟨k, r, k1, k2, k3⟩ := hget id hid
      rw [indexIds_get _ 0 k _ hnd k1]
      obtain ⟨f1, f2⟩ := flatten_rec rs k r hl k2
      simp only [Nat.zero_add]
      rw [if_pos f2]
      unfold rec at f1
      rw [f1, ← k3]
    · rw [indexIds_not _ _ _ hid]
      simp only [assoc]
      rw [← hlook id hid]
  refine ⟨_, _, _, hsave, hload, ⟨rfl, rfl, rfl, (fun _ _ hh => by cases hh), ?_, List.nodup_nil, hnd, ?_⟩, hlk, rfl⟩
  · intro id off ho
    simp only at ho ⊢
    by_cases hid : id ∈ c.savedIds
    · obtain ⟨k, r, k1, k2, k3⟩ := hget id hid
      rw [indexIds_get _ 0 k _ hnd k1] at ho
      injection ho with ho
      obtain ⟨f1, f2⟩ := flatten_rec rs k r hl k2
      rw [Nat.zero_add] at ho
      subst ho
      have hs := lookup_spec h id
      rw [k3] at hs
      exact ⟨f2, hs.2.2, (savedIds_lt h hid).1, fun _ => by rw [f1]; exact hs.2.1⟩
    · rw [indexIds_not _ _ _ hid] at ho; cases ho
  · intro id
    simp only
    by_cases hid : id ∈ c.savedIds
    · obtain ⟨k, r, k1, -, -⟩ := hget id hid
      rw [indexIds_get _ 0 k _ hnd k1]
      simp [hid]
    · rw [indexIds_not _ _ _ hid]
      simp [hid, assoc]

/-! ### Breadth-first selection -/

theorem scan_spec {n : Nat} : ∀ (l : List Nat) (vis : List Bool) (new : List Nat) (vis' : List Bool), vis.length = n → scan n l vis = (new, vis') →
    vis'.length = n ∧ new.Nodup ∧ (∀ v ∈ new, v < n ∧ vis[v]? = some false ∧ v ∈ l) ∧
    (∀ x, x < n → (vis'[x]? = some false ↔ vis[x]? = some false ∧ x ∉ new)) ∧
    (∀ v ∈ l, v < n → vis[v]? = some false → v ∈ new)
  | [], vis, new, vis', hl, h => by
    unfold scan at h; cases h
    exact ⟨hl, List.nodup_nil, (by simp), (by simp), (by simp)⟩
  | v :: rest, vis, new, vis', hl, h => by
    unfold scan at h
    by_cases hv : v < n ∧ vis[v]? = some false
    · rw [if_pos hv] at h
      cases e : scan n rest (vis.set v true) with
      | mk q vis1 =>
        rw [e] at h
        simp only at h
        cases h
        obtain ⟨h1, h2, h3, h4, h5⟩ := scan_spec rest (vis.set v true) q vis' (by rw [List.length_set]; exact hl) e
        have hset : ∀ x, x < n → ((vis.set v true)[x]? = some false ↔ vis[x]? = some false ∧ x ≠ v) := by
          intro x hx
          rw [List.getElem?_set]
          by_cases hxv : v = x
          · subst hxv; simp [hl, hv.1]
          · rw [if_neg hxv]
            constructor
            · exact fun hh => ⟨hh, fun e => hxv e.symm⟩
            · exact fun hh => hh.1
        refine ⟨h1, List.nodup_cons.2 ⟨?_, h2⟩, ?_, ?_, ?_⟩
        · intro hm
          have := h3 v hm
          exact ((hset v hv.1).1 this.2.1).2 rfl
        · intro x hx
          rcases List.mem_cons.1 hx with hx | hx
          · subst hx; exact ⟨hv.1, hv.2, List.mem_cons_self⟩
          · obtain ⟨a, b, c⟩ := h3 x hx
            exact ⟨a, ((hset x a).1 b).1, List.mem_cons_of_mem _ c⟩
        · intro x hx
          rw [h4 x hx, hset x hx, List.mem_cons]
          constructor
          · rintro ⟨⟨a, b⟩, c⟩
            exact ⟨a, fun e => e.elim b c⟩
          · rintro ⟨a, b⟩
            exact ⟨⟨a, fun e => b (Or.inl e)⟩, fun e => b (Or.inr e)⟩
        · intro x hx hxn hxv
          by_cases e : x = v
          · rw [e]; exact List.mem_cons_self
          · rcases List.mem_cons.1 hx with hx | hx
            · exact absurd hx e
            · exact List.mem_cons_of_mem _ (h5 x hx hxn ((hset x hxn).2 ⟨hxv, e⟩))
    · rw [if_neg hv] at h
      obtain ⟨h1, h2, h3, h4, h5⟩ := scan_spec rest vis new vis' hl h
      refine ⟨h1, h2, (fun x hx => ⟨(h3 x hx).1, (h3 x hx).2.1, List.mem_cons_of_mem _ (h3 x hx).2.2⟩), h4, ?_⟩
      intro x hx hxn hxv
      rcases List.mem_cons.1 hx with hx | hx
      · subst hx; exact absurd ⟨hxn, hxv⟩ hv
      · exact h5 x hx hxn hxv

/-- `b` is within `k` hops of some node of `q`, all nodes below `n`. -/
inductive Hops (n : Nat) (graph : List (List Nat)) (a : Nat) : Nat → Prop
  | refl : Hops n graph a a
  | step {u v : Nat} : Hops n graph a u → v ∈ graph[u]?.getD [] → v < n → Hops n graph a v

theorem bfs_spec {n : Nat} {graph : List (List Nat)} {root : Nat} : ∀ (fuel : Nat) (q : List Nat) (vis : List Bool), vis.length = n →
    q.Nodup → (∀ x ∈ q, x < n ∧ vis[x]? = some true ∧ Hops n graph root x) →
    (bfs n graph fuel q vis).length ≤ fuel ∧ (bfs n graph fuel q vis).Nodup ∧
    (∀ x ∈ bfs n graph fuel q vis, x < n ∧ (x ∈ q ∨ vis[x]? = some false) ∧ Hops n graph root x) ∧
    ((bfs n graph fuel q vis).length < fuel → (∀ x ∈ q, x ∈ bfs n graph fuel q vis) ∧
      ∀ u ∈ bfs n graph fuel q vis, ∀ v ∈ graph[u]?.getD [], v < n → vis[v]? = some true ∨ v ∈ bfs n graph fuel q vis)
  | 0, q, vis, _, _, _ => by simp [bfs]
  | fuel + 1, [], vis, _, _, _ => by simp [bfs]
  | fuel + 1, u :: q, vis, hl, hn, hq => by
    cases e : scan n (graph[u]?.getD []) vis with
    | mk new vis' =>
      have hb : bfs n graph (fuel + 1) (u :: q) vis = u :: bfs n graph fuel (q ++ new) vis' := by
        rw [bfs, e]
      obtain ⟨s1, s2, s3, s4, s5⟩ := scan_spec _ vis new vis' hl e
      obtain ⟨hun, huv, hur⟩ := hq u List.mem_cons_self
      have hnd := List.nodup_cons.1 hn
      have htrue : ∀ x, x < n → (vis'[x]? = some true ↔ vis[x]? = some true ∨ x ∈ new) := by
        intro x hx
        have h4 := s4 x hx
        have a1 : ∃ b, vis[x]? = some b := ⟨vis[x]'(by omega), List.getElem?_eq_getElem (by omega)⟩
        have a2 : ∃ b, vis'[x]? = some b := ⟨vis'[x]'(by omega), List.getElem?_eq_getElem (by omega)⟩
        obtain ⟨b1, e1⟩ := a1
        obtain ⟨b2, e2⟩ := a2
        rw [e1, e2] at h4 ⊢
        by_cases hm : x ∈ new
        · have h3 := (s3 x hm).2.1
          rw [e1] at h3
          injection h3 with h3
          subst h3
          cases b2 <;> simp [hm] at h4 ⊢
        · cases b1 <;> cases b2 <;> simp [hm] at h4 ⊢
      have hq' : ∀ x ∈ q ++ new, x < n ∧ vis'[x]? = some true ∧ Hops n graph root x := by
        intro x hx
        rcases List.mem_append.1 hx with hx | hx
        · obtain ⟨a, b, c⟩ := hq x (List.mem_cons_of_mem _ hx)
          exact ⟨a, (htrue x a).2 (Or.inl b), c⟩
        · obtain ⟨a, b, c⟩ := s3 x hx
          exact ⟨a, (htrue x a).2 (Or.inr hx), .step hur c a⟩
      have hnd' : (q ++ new).Nodup := by
        refine List.nodup_append.2 ⟨hnd.2, s2, ?_⟩
        intro a ha b hb' hab
        subst hab
        have h1 := (hq a (List.mem_cons_of_mem _ ha)).2.1
        rw [(s3 a hb').2.1] at h1; cases h1
      obtain ⟨r1, r2, r3, r4⟩ := bfs_spec fuel (q ++ new) vis' s1 hnd' hq'
      rw [hb]
      refine ⟨by rw [List.length_cons]; omega, List.nodup_cons.2 ⟨?_, r2⟩, ?_, ?_⟩
      · intro hm
        obtain ⟨-, hh | hh, -⟩ := r3 u hm
        · rcases List.mem_append.1 hh with hh | hh
          · exact hnd.1 hh
          · have := (s3 u hh).2.1
            rw [huv] at this; cases this
        · have := ((s4 u hun).1 hh).1
          rw [huv] at this; cases this
      · intro x hx
        rcases List.mem_cons.1 hx with hx | hx
        · subst hx; exact ⟨hun, Or.inl List.mem_cons_self, hur⟩
        · obtain ⟨a, b, c⟩ := r3 x hx
          refine ⟨a, ?_, c⟩
          rcases b with b | b
          · rcases List.mem_append.1 b with b | b
            · exact Or.inl (List.mem_cons_of_mem _ b)
            · exact Or.inr (s3 x b).2.1
          · exact Or.inr ((s4 x a).1 b).1
      · intro hlt
        rw [List.length_cons] at hlt
        obtain ⟨t1, t2⟩ := r4 (by omega)
        refine ⟨?_, ?_⟩
        · intro x hx
          rcases List.mem_cons.1 hx with hx | hx
          · rw [hx]; exact List.mem_cons_self
          · exact List.mem_cons_of_mem _ (t1 x (List.mem_append_left _ hx))
        · intro w hw v hv hvn
          have key : vis'[v]? = some true → vis[v]? = some true ∨ v ∈ u :: bfs n graph fuel (q ++ new) vis' := by
            intro hh
            rcases (htrue v hvn).1 hh with hh | hh
            · exact Or.inl hh
            · exact Or.inr (List.mem_cons_of_mem _ (t1 v (List.mem_append_right _ hh)))
          rcases List.mem_cons.1 hw with hw | hw
          · subst hw
            refine key ?_
            rw [htrue v hvn]
            cases hb' : vis[v]? with
            | none => rw [List.getElem?_eq_getElem (by omega)] at hb'; cases hb'
            | some b =>
              cases b with
              | true => exact Or.inl rfl
              | false => exact Or.inr (s5 v hv hvn hb')
          · rcases t2 w hw v hv hvn with hh | hh
            · exact key hh
            · exact Or.inr (List.mem_cons_of_mem _ hh)

/-! ### Packing -/

theorem rec_slice (b : Bytes) (off n : Nat) : rec b off n = slice b off n := rfl

/-- A record inside a slot can be read from the slot alone. -/
theorem holds_rec {b : Bytes} {off L : Nat} {coords nbrs : List (BitVec 32)} (h : Holds b off coords nbrs)
    (hl : coords.length * 4 + 4 + nbrs.length * 4 ≤ L) : Holds (rec b off L) 0 coords nbrs := by
  unfold Holds slice rec at *
  rw [List.drop_zero, List.take_take, Nat.min_eq_left hl, h]

/-- The record `generate` writes for a node. -/
def baseRec (graph : List (List Nat)) (vectors : List (BitVec 32)) (dim deg id : Nat) : Rec :=
  ((vectors.drop (id * dim)).take dim, ((graph[id]?.getD []).map (BitVec.ofNat 32)).take deg)

theorem packAll_spec {g : Geom} {dim deg n : Nat} (hg : Good g dim deg) {graph : List (List Nat)} {vectors : List (BitVec 32)}
    (hv : n * dim ≤ vectors.length) : ∀ (ids : List Nat) (i : Nat) (data : Bytes) (map : List (Nat × Nat)),
    (∀ x ∈ ids, x < n) → (i + ids.length) * g.nodeLen ≤ data.length →
    ∃ data', packAll dim deg g.nodeLen graph vectors ids i data map = .ok (data', indexIds g.nodeLen ids i map) ∧ data'.length = data.length ∧
      (∀ o k, o + k ≤ i * g.nodeLen → slice data' o k = slice data o k) ∧
      (∀ k id, ids[k]? = some id → Holds (rec data' ((i + k) * g.nodeLen) g.nodeLen) 0 (baseRec graph vectors dim deg id).1 (baseRec graph vectors dim deg id).2)
  | [], i, data, map, _, _ => ⟨data, rfl, rfl, (fun _ _ _ => rfl), by simp⟩
  | id :: rest, i, data, map, hid, hl => by
    have hlen := hg.len
    have hfit := hg.fit
    have hin := hid id List.mem_cons_self
    have hnb : (((graph[id]?.getD []).map (BitVec.ofNat 32)).take deg).length ≤ deg := by rw [List.length_take]; omega
    have hsz : (i + (id :: rest).length) * g.nodeLen = i * g.nodeLen + g.nodeLen + rest.length * g.nodeLen := by
      rw [List.length_cons, Nat.add_mul, Nat.succ_mul]; omega
    have hvl : dim ≤ (vectors.drop (id * dim)).length := by
      rw [List.length_drop]
      have : (id + 1) * dim ≤ n * dim := Nat.mul_le_mul_right _ hin
      rw [Nat.succ_mul] at this
      omega
    obtain ⟨p, e, lp, hp, hf⟩ := packNode_spec (page := data) (off := i * g.nodeLen) (dim := dim) (coords := vectors.drop (id * dim))
      (nbrs := ((graph[id]?.getD []).map (BitVec.ofNat 32)).take deg) hvl (by omega) (by omega)
    obtain ⟨d', e', l', f', r'⟩ := packAll_spec hg hv rest (i + 1) p ((id, i * g.nodeLen) :: map) (fun x hx => hid x (List.mem_cons_of_mem _ hx))
      (by rw [lp, Nat.add_mul, Nat.succ_mul]; omega)
    refine ⟨d', ?_, by rw [l', lp], ?_, ?_⟩
    · unfold packAll indexIds
      simp only
      rw [e]
      exact e'
    · intro o k ho
      rw [f' o k (by rw [Nat.succ_mul]; omega), hf o k (Or.inl ho)]
    · intro k id' hk
      cases k with
      | zero =>
        simp only [List.getElem?_cons_zero, Option.some.injEq] at hk
        subst hk
        rw [Nat.add_zero]
        have hx : (List.take dim (vectors.drop (id * dim))).length = dim := by rw [List.length_take]; omega
        unfold baseRec
        refine holds_rec ?_ (by rw [hx]; simp only at hnb ⊢; omega)
        unfold Holds
        simp only
        rw [f' _ _ (by rw [Nat.succ_mul, hx]; omega)]
        exact hp
      | succ k =>
        simp only [List.getElem?_cons_succ] at hk
        have := r' k id' hk
        rw [show i + 1 + k = i + (k + 1) by omega] at this
        exact this

/-- `generate` in full. -/
theorem generate_spec {g : Geom} {dim deg n medoid want : Nat} (hgc : compute dim deg = .ok g) (hg : Good g dim deg) {graph : List (List Nat)}
    {vectors : List (BitVec 32)} (hgl : graph.length = n) (hm : medoid < n) (hv : n * dim ≤ vectors.length) (hn32 : n ≤ 2 ^ 32)
    (hadr : ∀ id, id < n → g.Addressable id) :
    ∃ c, generate graph vectors medoid n dim deg want = .ok c ∧ CacheInv g dim deg c (baseRec graph vectors dim deg) ∧
      c.ids.length ≤ min want n ∧ (0 < want → c.ids.head? = some medoid) ∧ (∀ x ∈ c.ids, x < n ∧ Hops n graph medoid x) ∧
      (c.ids.length < min want n → ∀ u ∈ c.ids, ∀ v ∈ graph[u]?.getD [], v < n → v ∈ c.ids) := by
  have hpos := hg.pos
  unfold generate
  rw [if_neg (by omega), if_neg (by omega), if_neg (by omega), hgc]
  simp only
  by_cases ht : min want n = 0
  · rw [if_pos ht]
    refine ⟨_, rfl, ⟨rfl, rfl, rfl, (fun _ _ hh => by cases hh), (fun _ _ hh => by cases hh), List.nodup_nil, List.nodup_nil, by simp [assoc]⟩,
      by simp, ?_, by simp, by simp⟩
    intro hw
    omega
  · rw [if_neg ht]
    have hvis : ∀ x, ((List.replicate n false).set medoid true)[x]? = if x = medoid then some true else if x < n then some false else none := by
      intro x
      rw [List.getElem?_set]
      by_cases hx : medoid = x
      · subst hx; simp [hm]
      · rw [if_neg hx, if_neg (fun e => hx e.symm), List.getElem?_replicate]
    obtain ⟨b1, b2, b3, b4⟩ := bfs_spec (n := n) (graph := graph) (root := medoid) (min want n) [medoid] ((List.replicate n false).set medoid true)
      (by simp) (by simp) (by
        intro x hx
        rw [List.mem_singleton] at hx
        subst hx
        exact ⟨hm, by rw [hvis, if_pos rfl], .refl⟩)
    have hhead : (bfs n graph (min want n) [medoid] ((List.replicate n false).set medoid true)).head? = some medoid := by
      obtain ⟨f, hf⟩ : ∃ f, min want n = f + 1 := ⟨min want n - 1, by omega⟩
      rw [hf, bfs]
      rfl
    generalize bfs n graph (min want n) [medoid] ((List.replicate n false).set medoid true) = ids at *
    obtain ⟨d', e', l', -, r'⟩ := packAll_spec hg (graph := graph) hv ids 0 (List.replicate (ids.length * g.nodeLen) 0) [] (fun x hx => (b3 x hx).1) (by simp)
    rw [e']
    refine ⟨_, rfl, ⟨rfl, rfl, rfl, (fun _ _ hh => by cases hh), ?_, List.nodup_nil, b2, ?_⟩, b1, fun _ => hhead, fun x hx => ⟨(b3 x hx).1, (b3 x hx).2.2⟩, ?_⟩
    · intro id off ho
      simp only at ho ⊢
      by_cases hid : id ∈ ids
      · obtain ⟨k, hk⟩ := List.getElem?_of_mem hid
        rw [indexIds_get _ 0 k _ b2 hk, Nat.zero_add] at ho
        injection ho with ho
        subst ho
        have hkl : k < ids.length := (List.getElem?_eq_some_iff.1 hk).1
        have hh := r' k id hk
        rw [Nat.zero_add] at hh
        refine ⟨?_, hadr id (b3 id hid).1, by have := (b3 id hid).1; omega, fun _ => hh⟩
        rw [l', List.length_replicate]
        have : (k + 1) * g.nodeLen ≤ ids.length * g.nodeLen := Nat.mul_le_mul_right _ hkl
        rw [Nat.succ_mul] at this
        omega
      · rw [indexIds_not _ _ _ hid] at ho; cases ho
    · intro id
      simp only
      by_cases hid : id ∈ ids
      · obtain ⟨k, hk⟩ := List.getElem?_of_mem hid
        rw [indexIds_get _ 0 k _ b2 hk]
        simp [hid]
      · rw [indexIds_not _ _ _ hid]
        simp [hid, assoc]
    · intro hlt u hu v hvm hvn
      rcases (b4 hlt).2 u hu v hvm hvn with hh | hh
      · rw [hvis] at hh
        by_cases e : v = medoid
        · subst e; exact (b4 hlt).1 v (by simp)
        · rw [if_neg e, if_pos hvn] at hh; cases hh
      · exact hh

end Alaya.NodeCache
