import Verif.Model.NNDescent

/-!
# C108: the candidate pools of the k-NN graph builder

Model: Model/NNDescent.lean.  What fails is in C108Limits.lean.
-/

namespace Alaya.NND

theorem length_bumpFrom (t : List Nat) : ∀ p, (bumpFrom p t).length = t.length := by
  induction t with
  | nil => intro p; rfl
  | cons a t ih => intro p; simp [bumpFrom, ih]

theorem length_bump (l : List Nat) : (bump l).length = l.length := by
  cases l <;> simp [bump, length_bumpFrom]

theorem bumpFrom_inc (t : List Nat) : ∀ p, (p :: bumpFrom p t).Pairwise (· < ·) := by
  induction t with
  | nil => intro p; simp [bumpFrom]
  | cons a t ih =>
    intro p
    simp only [bumpFrom]
    have hb : p < if a ≤ p then p + 1 else a := by split <;> omega
    generalize (if a ≤ p then p + 1 else a) = b at hb
    have := ih b
    refine List.pairwise_cons.mpr ⟨?_, this⟩
    intro x hx
    rcases List.mem_cons.mp hx with rfl | hx
    · exact hb
    · exact lt_trans hb ((List.pairwise_cons.mp this).1 x hx)

theorem bumpFrom_le (t : List Nat) (D : Nat) : ∀ p, (∀ a ∈ t, a ≤ D) → ∀ x ∈ bumpFrom p t, x ≤ max p D + t.length := by
  induction t with
  | nil => intro p _ x hx; simp [bumpFrom] at hx
  | cons a t ih =>
    intro p h x hx
    have ha := h a (by simp)
    simp only [bumpFrom] at hx
    have hb : (if a ≤ p then p + 1 else a) ≤ max p D + 1 := by split <;> omega
    generalize (if a ≤ p then p + 1 else a) = b at hb hx
    simp only [List.length_cons]
    rcases List.mem_cons.mp hx with rfl | hx
    · omega
    · have := ih b (fun a ha => h a (by simp [ha])) x hx
      omega

/-- A random sample has the size asked for and consists of ids of vectors, whatever numbers are drawn. -/
theorem C108_sample (raw : List Nat) (rawOff n : Nat) (hn : 0 < n) :
    (genRandom raw rawOff n).length = raw.length ∧ ∀ id ∈ genRandom raw rawOff n, id < n := by
  constructor
  · simp [genRandom, length_bump]
  · intro id h
    simp only [genRandom, List.mem_map] at h
    obtain ⟨a, _, rfl⟩ := h
    exact Nat.mod_lt _ hn

/-- It has no repetition if no number drawn, reduced, exceeds `n - size`. -/
theorem C108_distinct (raw : List Nat) (rawOff n : Nat) (h : ∀ a ∈ raw, a % n + raw.length ≤ n) : (genRandom raw rawOff n).Nodup := by
  have hs : ∀ a ∈ (raw.map (· % n)).insertionSort (· ≤ ·), a + raw.length ≤ n := by
    intro a ha
    rw [List.mem_insertionSort, List.mem_map] at ha
    obtain ⟨x, hx, rfl⟩ := ha
    exact h x hx
  have hl : ((raw.map (· % n)).insertionSort (· ≤ ·)).length = raw.length := by simp
  unfold genRandom
  generalize (raw.map (· % n)).insertionSort (· ≤ ·) = l at hs hl
  cases l with
  | nil => simp [bump]
  | cons a t =>
    simp only [List.length_cons] at hl
    have hlt : ∀ x ∈ bump (a :: t), x < n := by
      intro x hx
      have ha := hs a (by simp)
      rcases List.mem_cons.mp hx with rfl | hx
      · omega
      · have := bumpFrom_le t (n - raw.length) a (fun y hy => by have := hs y (by simp [hy]); omega) x hx
        omega
    have hnd : (bump (a :: t)).Nodup := (bumpFrom_inc t a).imp (fun h => Nat.ne_of_lt h)
    refine List.Nodup.map_on ?_ hnd
    intro x hx y hy e
    have h1 := hlt x hx
    have h2 := hlt y hy
    have ho : rawOff % n < n := Nat.mod_lt _ (by omega)
    have key : ∀ z < n, (z + rawOff % n) % n = if z + rawOff % n < n then z + rawOff % n else z + rawOff % n - n := by
      intro z hz
      split
      · rename_i h; exact Nat.mod_eq_of_lt h
      · rename_i h
        rw [Nat.mod_eq_sub_mod (by omega), Nat.mod_eq_of_lt (by omega)]
    have e : (x + rawOff % n) % n = (y + rawOff % n) % n := e
    rw [key x h1, key y h2] at e
    split at e <;> split at e <;> omega

variable {K : Type} [LinearOrder K]

theorem largest_spec {pool : List (Cand K)} {m : Cand K} (h : largest pool = some m) : m ∈ pool ∧ ∀ e ∈ pool, e.dist ≤ m.dist := by
  have gen : ∀ (t : List (Cand K)) (a : Cand K),
      (t.foldl (fun m x => if less m x then x else m) a) ∈ a :: t ∧
        ∀ e ∈ a :: t, e.dist ≤ (t.foldl (fun m x => if less m x then x else m) a).dist := by
    intro t
    induction t with
    | nil => intro a; simp
    | cons b t ih =>
      intro a
      simp only [List.foldl_cons]
      have hc : (if less a b then b else a) ∈ [a, b] ∧ a.dist ≤ (if less a b then b else a).dist ∧
          b.dist ≤ (if less a b then b else a).dist := by
        by_cases hl : less a b
        · simp only [hl, if_true]
          refine ⟨by simp, ?_, le_refl _⟩
          simp only [less, Bool.or_eq_true, Bool.and_eq_true, decide_eq_true_eq] at hl
          rcases hl with h | h
          · exact le_of_lt h
          · exact le_of_eq h.1
        · simp only [hl]
          refine ⟨by simp, le_refl _, ?_⟩
          simp only [less, Bool.or_eq_true, Bool.and_eq_true, decide_eq_true_eq, not_or] at hl
          exact not_lt.mp hl.1
      generalize (if less a b then b else a) = c at hc
      obtain ⟨h1, h2⟩ := ih c
      constructor
      · rcases List.mem_cons.mp h1 with h | h
        · rw [h]
          have := hc.1
          simp at this
          rcases this with h | h <;> simp [h]
        · simp [h]
      · intro e he
        have hcle := h2 c (by simp)
        simp only [List.mem_cons] at he
        rcases he with rfl | rfl | he
        · exact le_trans hc.2.1 hcle
        · exact le_trans hc.2.2 hcle
        · exact h2 e (by simp [he])
  cases pool with
  | nil => simp [largest] at h
  | cons a t =>
    simp only [largest, Option.some.injEq] at h
    subst h
    exact gen t a

/-- What is true of a pool, with all ids seen so far. -/
structure Good (dist : Nat → Nat → K) (start : Nat) (seen : List Nat) (pool : List (Cand K)) : Prop where
  true_dist : ∀ e ∈ pool, e.dist = dist start e.id ∧ e.id ≠ start ∧ e.id ∈ seen
  near : ∀ id ∈ seen, id ≠ start → id ∈ pool.map Cand.id ∨ ∀ e ∈ pool, e.dist ≤ dist start id

theorem good_init (dist : Nat → Nat → K) (start : Nat) (sample : List Nat) : Good dist start sample (initPool dist start sample) := by
  constructor
  · intro e he
    simp only [initPool, List.mem_map, List.mem_filter, decide_eq_true_eq] at he
    obtain ⟨id, ⟨h1, h2⟩, rfl⟩ := he
    exact ⟨rfl, h2, h1⟩
  · intro id h1 h2
    left
    simp [initPool, h1, h2]

theorem insert_spec {cap : Nat} {pool pool' : List (Cand K)} {c : Cand K} (h : insert cap pool c = some pool') :
    ∃ m, largest pool = some m ∧ ((m.dist < c.dist ∧ pool' = pool) ∨ (c.id ∈ pool.map Cand.id ∧ pool' = pool) ∨
      (c.dist ≤ m.dist ∧ c.id ∉ pool.map Cand.id ∧ pool.length < cap ∧ pool' = pool ++ [c]) ∨
      (c.dist ≤ m.dist ∧ c.id ∉ pool.map Cand.id ∧ cap ≤ pool.length ∧ pool' = pool.erase m ++ [c])) := by
  simp only [insert, Option.map_eq_some_iff] at h
  obtain ⟨m, hm, h⟩ := h
  refine ⟨m, hm, ?_⟩
  split at h
  · exact .inl ⟨by assumption, h.symm⟩
  · rename_i hle
    have hle := not_lt.mp hle
    split at h
    · rename_i ha
      refine .inr (.inl ⟨?_, h.symm⟩)
      simp only [List.any_eq_true, decide_eq_true_eq] at ha
      obtain ⟨e, he, hid⟩ := ha
      exact List.mem_map.mpr ⟨e, he, hid⟩
    · rename_i ha
      have ha' : c.id ∉ pool.map Cand.id := by
        intro hc
        obtain ⟨e, he, hid⟩ := List.mem_map.mp hc
        exact ha (List.any_eq_true.mpr ⟨e, he, by simp [hid]⟩)
      split at h
      · rename_i hl; exact .inr (.inr (.inl ⟨hle, ha', hl, h.symm⟩))
      · rename_i hl; exact .inr (.inr (.inr ⟨hle, ha', not_lt.mp hl, h.symm⟩))

theorem insert_good {dist : Nat → Nat → K} {start cap id : Nat} {seen : List Nat} {pool pool' : List (Cand K)}
    (hg : Good dist start seen pool) (hid : id ≠ start) (h : insert cap pool ⟨id, dist start id⟩ = some pool') :
    Good dist start (seen ++ [id]) pool' := by
  obtain ⟨m, hm, hc⟩ := insert_spec h
  obtain ⟨hmem, hmax⟩ := largest_spec hm
  have base : ∀ e ∈ pool, e.dist = dist start e.id ∧ e.id ≠ start ∧ e.id ∈ seen ++ [id] := fun e he =>
    ⟨(hg.true_dist e he).1, (hg.true_dist e he).2.1, List.mem_append_left _ (hg.true_dist e he).2.2⟩
  rcases hc with ⟨hlt, rfl⟩ | ⟨hin, rfl⟩ | ⟨hle, hn, hl, rfl⟩ | ⟨hle, hn, hl, rfl⟩
  · refine ⟨base, ?_⟩
    intro x hx hxs
    rcases List.mem_append.mp hx with hx | hx
    · exact hg.near x hx hxs
    · rw [List.mem_singleton.mp hx]
      exact .inr (fun e he => le_trans (hmax e he) (le_of_lt hlt))
  · refine ⟨base, ?_⟩
    intro x hx hxs
    rcases List.mem_append.mp hx with hx | hx
    · exact hg.near x hx hxs
    · rw [List.mem_singleton.mp hx]
      exact .inl hin
  · constructor
    · intro e he
      rcases List.mem_append.mp he with he | he
      · exact base e he
      · rw [List.mem_singleton.mp he]; exact ⟨rfl, hid, by simp⟩
    · intro x hx hxs
      rcases List.mem_append.mp hx with hx | hx
      · rcases hg.near x hx hxs with h1 | h1
        · exact .inl (by rw [List.map_append]; exact List.mem_append_left _ h1)
        · refine .inr (fun e he => ?_)
          rcases List.mem_append.mp he with he | he
          · exact h1 e he
          · rw [List.mem_singleton.mp he]; exact le_trans hle (h1 m hmem)
      · rw [List.mem_singleton.mp hx]; exact .inl (by simp)
  · constructor
    · intro e he
      rcases List.mem_append.mp he with he | he
      · exact base e (List.mem_of_mem_erase he)
      · rw [List.mem_singleton.mp he]; exact ⟨rfl, hid, by simp⟩
    · have hall : ∀ e ∈ pool.erase m ++ [(⟨id, dist start id⟩ : Cand K)], e.dist ≤ m.dist := by
        intro e he
        rcases List.mem_append.mp he with he | he
        · exact hmax e (List.mem_of_mem_erase he)
        · rw [List.mem_singleton.mp he]; exact hle
      intro x hx hxs
      rcases List.mem_append.mp hx with hx | hx
      · rcases hg.near x hx hxs with h1 | h1
        · obtain ⟨e, he, hex⟩ := List.mem_map.mp h1
          by_cases hem : e = m
          · right
            intro e' he'
            have := hall e' he'
            rw [← hem, (hg.true_dist e he).1, hex] at this
            exact this
          · left
            rw [List.map_append]
            exact List.mem_append_left _ (List.mem_map.mpr ⟨e, (List.mem_erase_of_ne hem).mpr he, hex⟩)
        · exact .inr (fun e he => le_trans (hall e he) (h1 m hmem))
      · rw [List.mem_singleton.mp hx]; exact .inl (by simp)

theorem insert_size {cap : Nat} {pool pool' : List (Cand K)} {c : Cand K} (h : insert cap pool c = some pool') :
    pool.length ≤ pool'.length ∧ pool'.length ≤ max cap pool.length ∧
      ((pool.map Cand.id).Nodup → (pool'.map Cand.id).Nodup) := by
  obtain ⟨m, hm, hc⟩ := insert_spec h
  have hmem := (largest_spec hm).1
  rcases hc with ⟨_, rfl⟩ | ⟨_, rfl⟩ | ⟨_, hn, hl, rfl⟩ | ⟨_, hn, hl, rfl⟩
  · exact ⟨le_refl _, by omega, id⟩
  · exact ⟨le_refl _, by omega, id⟩
  · refine ⟨by simp, by simp; omega, fun hnd => ?_⟩
    rw [List.map_append]
    refine List.nodup_append.mpr ⟨hnd, by simp, ?_⟩
    intro a ha b hb
    simp only [List.map_cons, List.map_nil, List.mem_singleton] at hb
    rintro rfl
    exact hn (hb ▸ ha)
  · have hpos : 0 < pool.length := List.length_pos_of_mem hmem
    have hlen := List.length_erase_of_mem hmem
    refine ⟨by simp [hlen]; omega, by simp [hlen]; omega, fun hnd => ?_⟩
    rw [List.map_append]
    refine List.nodup_append.mpr ⟨(List.Sublist.map _ List.erase_sublist).nodup hnd, by simp, ?_⟩
    intro a ha b hb
    simp only [List.map_cons, List.map_nil, List.mem_singleton] at hb
    rintro rfl
    refine hn (hb ▸ ?_)
    exact (List.Sublist.map _ List.erase_sublist).subset ha

theorem offers_cons (dist : Nat → Nat → K) (start cap : Nat) (pool : List (Cand K)) (id : Nat) (ids : List Nat) :
    offers dist start cap pool (id :: ids) = (insert cap pool ⟨id, dist start id⟩).bind (fun p => offers dist start cap p ids) := by
  simp [offers, List.foldlM_cons]

/-- Whatever is offered in whatever order: the pool is defined if the sample has another node, its entries are other nodes that were sampled or
offered, with their true distances, at most as many as the limit, and no fewer than at the start. -/
theorem C108_pool (dist : Nat → Nat → K) (start cap : Nat) {sample ids : List Nat} (hs : ∃ x ∈ sample, x ≠ start)
    (hcap : sample.length ≤ cap) (hids : ∀ id ∈ ids, id ≠ start) :
    ∃ pool, offers dist start cap (initPool dist start sample) ids = some pool ∧ pool.length ≤ cap ∧
      (initPool dist start sample).length ≤ pool.length ∧
      (∀ e ∈ pool, e.dist = dist start e.id ∧ e.id ≠ start ∧ e.id ∈ sample ++ ids) ∧
      (∀ id ∈ sample ++ ids, id ≠ start → id ∈ pool.map Cand.id ∨ ∀ e ∈ pool, e.dist ≤ dist start id) ∧
      (sample.Nodup → (pool.map Cand.id).Nodup) := by
  have gen : ∀ (ids seen : List Nat) (p : List (Cand K)), (∀ id ∈ ids, id ≠ start) → p ≠ [] → p.length ≤ cap → Good dist start seen p →
      ∃ pool, offers dist start cap p ids = some pool ∧ pool.length ≤ cap ∧ p.length ≤ pool.length ∧
        Good dist start (seen ++ ids) pool ∧ ((p.map Cand.id).Nodup → (pool.map Cand.id).Nodup) := by
    intro ids
    induction ids with
    | nil => intro seen p _ _ hl hg; exact ⟨p, rfl, hl, le_refl _, by simpa using hg, _root_.id⟩
    | cons id ids ih =>
      intro seen p hids hne hl hg
      have hdef : ∃ p', insert cap p ⟨id, dist start id⟩ = some p' := by
        cases p with
        | nil => exact absurd rfl hne
        | cons a t => exact ⟨_, rfl⟩
      obtain ⟨p', hp'⟩ := hdef
      have hsz := insert_size hp'
      have hg' := insert_good hg (hids id (by simp)) hp'
      have hne' : p' ≠ [] := by
        rintro rfl
        have := hsz.1
        simp at this
        exact hne this
      obtain ⟨pool, e, e1, e2, e3, e4⟩ := ih (seen ++ [id]) p' (fun x hx => hids x (by simp [hx])) hne' (by omega) hg'
      refine ⟨pool, by rw [offers_cons, hp']; exact e, e1, le_trans hsz.1 e2, by simpa using e3, fun h => e4 (hsz.2.2 h)⟩
  obtain ⟨x, hx, hxs⟩ := hs
  have hne : initPool dist start sample ≠ [] := by
    intro e
    have : (⟨x, dist start x⟩ : Cand K) ∈ initPool dist start sample := by simp [initPool, hx, hxs]
    rw [e] at this
    simp at this
  have hlen : (initPool dist start sample).length ≤ cap := by
    simp only [initPool, List.length_map]
    exact le_trans (List.length_filter_le _ _) hcap
  obtain ⟨pool, e, e1, e2, e3, e4⟩ := gen ids sample _ hids hne hlen (good_init dist start sample)
  refine ⟨pool, e, e1, e2, e3.true_dist, e3.near, fun hnd => e4 ?_⟩
  simp only [initPool, List.map_map]
  have : (Cand.id ∘ fun id => (⟨id, dist start id⟩ : Cand K)) = id := rfl
  rw [this, List.map_id]
  exact hnd.filter _

/-- A pool with at least `k` entries gives a row of `k` nodes of the pool, nearest first, none of the others nearer, and without repetition if
the pool has none. -/
theorem C108_row (k : Nat) (pool : List (Cand K)) (hk : k ≤ pool.length) :
    ∃ es rest : List (Cand K), row k pool = some (es.map Cand.id) ∧ es.length = k ∧ (es ++ rest).Perm pool ∧
      es.Pairwise (fun a b => a.dist ≤ b.dist) ∧ (∀ a ∈ es, ∀ b ∈ rest, a.dist ≤ b.dist) ∧
      ((pool.map Cand.id).Nodup → (es.map Cand.id).Nodup) := by
  have hle : ∀ a b : Cand K, less b a = false → a.dist ≤ b.dist := by
    intro a b h
    simp only [less, Bool.or_eq_false_iff, decide_eq_false_iff_not] at h
    exact not_lt.mp h.1
  have htot : ∀ a b : Cand K, less b a = false ∨ less a b = false := by
    intro a b
    simp only [less, Bool.or_eq_false_iff, Bool.and_eq_false_iff, decide_eq_false_iff_not]
    rcases lt_trichotomy a.dist b.dist with h | h | h
    · exact .inl ⟨not_lt.mpr h.le, .inl (ne_of_gt h)⟩
    · rcases Nat.lt_or_ge a.id b.id with h2 | h2
      · exact .inl ⟨by rw [h]; exact lt_irrefl _, .inr (by omega)⟩
      · exact .inr ⟨by rw [h]; exact lt_irrefl _, .inr (by omega)⟩
    · exact .inr ⟨not_lt.mpr h.le, .inl (ne_of_gt h)⟩
  have htr : ∀ a b c : Cand K, less b a = false → less c b = false → less c a = false := by
    intro a b c
    simp only [less, Bool.or_eq_false_iff, Bool.and_eq_false_iff, decide_eq_false_iff_not, not_lt]
    rintro ⟨h1, h2⟩ ⟨h3, h4⟩
    refine ⟨le_trans h1 h3, ?_⟩
    by_cases hca : c.dist = a.dist
    · right
      have hba : b.dist = a.dist := le_antisymm (hca ▸ h3) h1
      have h2' := h2.resolve_left (fun h => h hba)
      have h4' := h4.resolve_left (fun h => h (hca.trans hba.symm))
      omega
    · exact .inl hca
  have : Std.Total (fun a b : Cand K => less b a = false) := ⟨htot⟩
  have : IsTrans (Cand K) (fun a b : Cand K => less b a = false) := ⟨htr⟩
  have hsorted := List.pairwise_insertionSort (fun a b : Cand K => less b a = false) pool
  have hperm := List.perm_insertionSort (fun a b : Cand K => less b a = false) pool
  unfold row
  generalize pool.insertionSort (fun a b => less b a = false) = s at hsorted hperm
  have hks : k ≤ s.length := by rw [hperm.length_eq]; exact hk
  have hsplit : (s.take k ++ s.drop k) = s := List.take_append_drop k s
  refine ⟨s.take k, s.drop k, ?_, by simp [hks], by rw [hsplit]; exact hperm, ?_, ?_, ?_⟩
  · have : ∀ k ≤ s.length, (List.range k).mapM (fun (j : Nat) => (s[j]?).map Cand.id) = some ((s.take k).map Cand.id) := by
      intro k
      induction k with
      | zero => intro _; rfl
      | succ k ih =>
        intro hk
        have hlt : k < s.length := hk
        have h1 : [k].mapM (fun (j : Nat) => (s[j]?).map Cand.id) = some [s[k].id] := by simp [hlt]
        rw [List.range_succ (n := k), List.mapM_append, ih (by omega), h1, List.take_add_one, List.getElem?_eq_getElem hlt, List.map_append]
        rfl
    exact this k hks
  · exact (hsorted.sublist (List.take_sublist k s)).imp (fun h => hle _ _ h)
  · intro a ha b hb
    rw [← hsplit] at hsorted
    exact hle _ _ ((List.pairwise_append.mp hsorted).2.2 a ha b hb)
  · intro hnd
    have := (hperm.map Cand.id).nodup_iff.mpr hnd
    exact ((List.take_sublist k s).map Cand.id).nodup this

/-- Ten numbers drawn for 100 vectors, some equal. -/
example : (∀ a ∈ [5, 105, 205, 77, 90, 3, 88, 88, 1, 0], a % 100 + [5, 105, 205, 77, 90, 3, 88, 88, 1, 0].length ≤ 100) ∧
    genRandom [5, 105, 205, 77, 90, 3, 88, 88, 1, 0] 95 100 = [95, 96, 98, 0, 1, 2, 72, 83, 84, 85] := by decide +kernel

/-- A pool of three: 7 replaces 9, 20 is too far. -/
example : offers (fun a b => max a b - min a b) 4 3 (initPool (fun a b => max a b - min a b) 4 [9, 4, 2, 6]) [20, 7, 2]
    = some [⟨2, 2⟩, ⟨6, 2⟩, ⟨7, 3⟩] := by decide +kernel

example : row 2 ([⟨7, 3⟩, ⟨6, 2⟩, ⟨2, 2⟩] : List (Cand Nat)) = some [2, 6] := by decide +kernel

end Alaya.NND
