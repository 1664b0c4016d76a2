import Verif.Model.DiskPages

namespace Alaya.DiskPages
open Alaya.DiskSlots (Out)

/-! ### The page map -/

def PageMap.keys (m : PageMap) : List Nat := m.map Prod.fst

theorem find_none_iff : ∀ (m : PageMap) (o : Nat), m.find o = none ↔ o ∉ m.keys
  | [], o => by simp [PageMap.find, PageMap.keys]
  | (k, e) :: m, o => by
    have ih := find_none_iff m o
    unfold PageMap.find
    by_cases h : k = o
    · simp [h, PageMap.keys]
    · rw [if_neg h, ih]
      simp [PageMap.keys, Ne.symm h]

theorem find_some_mem {m : PageMap} {o : Nat} {e : Entry} (h : m.find o = some e) : o ∈ m.keys := by
  cases hk : decide (o ∈ m.keys) with
  | true => exact of_decide_eq_true hk
  | false =>
    have := (find_none_iff m o).2 (of_decide_eq_false hk)
    rw [this] at h; cases h

theorem mem_keys_find {m : PageMap} {o : Nat} (h : o ∈ m.keys) : ∃ e, m.find o = some e := by
  cases hf : m.find o with
  | none => exact absurd h ((find_none_iff m o).1 hf)
  | some e => exact ⟨e, rfl⟩

theorem find_update : ∀ (m : PageMap) (o : Nat) (e : Entry) (x : Nat), (∃ y, m.find o = some y) →
    (m.update o e).find x = if x = o then some e else m.find x
  | [], o, e, x, h => by obtain ⟨y, hy⟩ := h; cases hy
  | (k, e0) :: m, o, e, x, h => by
    have step : PageMap.update ((k, e0) :: m) o e = (if k = o then (o, e) else (k, e0)) :: PageMap.update m o e := rfl
    rw [step]
    by_cases hk : k = o
    · subst hk
      rw [if_pos rfl]
      unfold PageMap.find
      by_cases hx : k = x
      · rw [if_pos hx, if_pos hx.symm]
      · rw [if_neg hx, if_neg hx, if_neg (Ne.symm hx)]
        by_cases hm : ∃ y, PageMap.find m k = some y
        · rw [find_update m k e x hm, if_neg (Ne.symm hx)]
        · have : PageMap.update m k e = m := by
            unfold PageMap.update
            rw [List.map_congr_left (g := id), List.map_id]
            intro y hy
            rw [if_neg]
            · rfl
            · intro hyk
              exact hm (mem_keys_find (by rw [← hyk]; exact List.mem_map_of_mem hy))
          rw [this]
    · rw [if_neg hk]
      obtain ⟨y, hy⟩ := h
      unfold PageMap.find at hy
      rw [if_neg hk] at hy
      have ih := find_update m o e x ⟨y, hy⟩
      unfold PageMap.find
      by_cases hx : k = x
      · rw [if_pos hx, if_pos hx, if_neg (by omega)]
      · rw [if_neg hx, if_neg hx, ih]

theorem keys_update (m : PageMap) (o : Nat) (e : Entry) : (m.update o e).keys = m.keys := by
  unfold PageMap.keys PageMap.update
  rw [List.map_map]
  apply List.map_congr_left
  intro x _
  simp only [Function.comp]
  split
  · rename_i h; exact h.symm
  · rfl

theorem length_update (m : PageMap) (o : Nat) (e : Entry) : (m.update o e).length = m.length := by
  unfold PageMap.update; rw [List.length_map]

theorem find_remove : ∀ (m : PageMap) (o x : Nat), (m.remove o).find x = if x = o then none else m.find x
  | [], o, x => by simp [PageMap.remove, PageMap.find]
  | (k, e) :: m, o, x => by
    have ih := find_remove m o x
    unfold PageMap.remove at *
    by_cases hk : k = o
    · subst hk
      rw [List.filter_cons_of_neg (by simp), ih]
      by_cases hx : x = k
      · rw [if_pos hx, if_pos hx]
      · rw [if_neg hx, if_neg hx]
        conv => rhs; unfold PageMap.find
        rw [if_neg (Ne.symm hx)]
    · rw [List.filter_cons_of_pos (by simp [hk])]
      unfold PageMap.find
      by_cases hx : k = x
      · subst hx; rw [if_pos rfl, if_pos rfl, if_neg hk]
      · rw [if_neg hx, if_neg hx, ih]

theorem keys_remove (m : PageMap) (o : Nat) : (m.remove o).keys = m.keys.filter (· ≠ o) := by
  unfold PageMap.keys PageMap.remove
  rw [List.filter_map]
  rfl

theorem length_filter_ne' : ∀ {l : List Nat} (_ : l.Nodup) {x : Nat} (_ : x ∈ l), (l.filter (· ≠ x)).length + 1 = l.length
  | [], _, _, hx => by cases hx
  | y :: l, h, x, hx => by
    rw [List.nodup_cons] at h
    by_cases e : y = x
    · subst e
      rw [List.filter_cons_of_neg (by simp), List.filter_eq_self.2]
      · rfl
      · intro z hz
        simp only [ne_eq, decide_eq_true_eq]
        rintro rfl; exact h.1 hz
    · rw [List.filter_cons_of_pos (by simp [e]), List.length_cons, List.length_cons,
        length_filter_ne' h.2 (by rcases List.mem_cons.1 hx with rfl | hx; exact absurd rfl e; exact hx)]

/-! ### One cache -/

/-- The cache over the disk represents the contents `latest` of the pages in `K`. -/
structure CInv (c : Cache) (d latest : Disk) (K : Nat → Prop) : Prop where
  lruNd : c.lru.Nodup
  keysNd : c.pages.keys.Nodup
  same : ∀ o, o ∈ c.lru ↔ o ∈ c.pages.keys
  size : c.pages.length ≤ c.cap
  own : ∀ o ∈ c.pages.keys, K o
  entry : ∀ o e, c.pages.find o = some e → e.bytes = latest o ∧ (e.dirty = false → d o = e.bytes)
  miss : ∀ o, K o → c.pages.find o = none → d o = latest o

/-- A page is dirty in the cache. -/
def Dirty (c : Cache) (o : Nat) : Prop := ∃ e, c.pages.find o = some e ∧ e.dirty = true

/-- The new contents after a write of `b` to `off`. -/
def upd (l : Disk) (off : Nat) (b : Bytes) : Disk := fun o => if o = off then b else l o

theorem upd_self (l : Disk) (off : Nat) : upd l off (l off) = l := by
  funext o
  unfold upd
  split
  · rename_i h; rw [h]
  · rfl

theorem touch_mem (l : List Nat) (o x : Nat) : x ∈ touch l o ↔ x = o ∨ x ∈ l := by
  unfold touch
  rw [List.mem_cons, List.mem_filter]
  constructor
  · rintro (h | h)
    · exact Or.inl h
    · exact Or.inr h.1
  · rintro (h | h)
    · exact Or.inl h
    · by_cases hx : x = o
      · exact Or.inl hx
      · exact Or.inr ⟨h, by simp [hx]⟩

theorem touch_nodup {l : List Nat} (h : l.Nodup) (o : Nat) : (touch l o).Nodup := by
  unfold touch
  exact List.nodup_cons.2 ⟨by simp, h.filter _⟩

theorem read_spec {c : Cache} {d latest : Disk} {K : Nat → Prop} (h : CInv c d latest K) (off : Nat) :
    match c.read off with
    | some (b, c') => b = latest off ∧ CInv c' d latest K ∧ c'.cap = c.cap ∧ c'.pages = c.pages ∧ 0 < c.cap
    | none => c.cap = 0 ∨ c.pages.find off = none := by
  unfold Cache.read
  by_cases h0 : c.cap = 0
  · rw [if_pos h0]; exact Or.inl h0
  · rw [if_neg h0]
    cases hf : c.pages.find off with
    | none => exact Or.inr rfl
    | some e =>
      refine ⟨(h.entry off e hf).1, ⟨touch_nodup h.lruNd off, h.keysNd, ?_, h.size, h.own, h.entry, h.miss⟩, rfl, rfl, by omega⟩
      intro o
      simp only
      rw [touch_mem, ← h.same o]
      constructor
      · rintro (rfl | hh)
        · exact (h.same _).2 (find_some_mem hf)
        · exact hh
      · exact Or.inr

theorem cap_zero_find {c : Cache} {d latest : Disk} {K : Nat → Prop} (h : CInv c d latest K) (h0 : c.cap = 0) (o : Nat) :
    c.pages.find o = none := by
  have : c.pages = [] := List.eq_nil_of_length_eq_zero (by have := h.size; omega)
  rw [this]; rfl

theorem evictExcess_id (io : Io) (n : Nat) {c : Cache} (d : Disk) (h : c.pages.length ≤ c.cap) : evictExcess io n c d = .ok (c, d) := by
  cases n with
  | zero => rfl
  | succ n => unfold evictExcess; rw [if_pos h]

/-- What an operation on a cache may do to the disk and to the dirty pages. -/
structure Effect (c : Cache) (d : Disk) (K : Nat → Prop) (off : Nat) (dirty : Bool) (c' : Cache) (d' : Disk) : Prop where
  cap : c'.cap = c.cap
  frame : ∀ o, ¬ K o → d' o = d o
  chg : ∀ o, d' o ≠ d o → Dirty c o
  dirt : ∀ o, Dirty c' o → Dirty c o ∨ (o = off ∧ dirty = true)

theorem getLast_split {l : List Nat} {v : Nat} (h : l.getLast? = some v) : l = l.dropLast ++ [v] := by
  have hne : l ≠ [] := by rintro rfl; cases h
  rw [List.getLast?_eq_some_getLast hne] at h
  injection h with h
  rw [← h, List.dropLast_concat_getLast hne]

theorem write_spec {c : Cache} {d latest : Disk} {K : Nat → Prop} (h : CInv c d latest K) (io : Io) {off : Nat} (hK : K off) (b : Bytes)
    (dirty : Bool) (hb : dirty = false → b = latest off) (hcap : dirty = true → 0 < c.cap) :
    match c.write io d off b dirty with
    | .ub => False
    | .throws (c', d') => CInv c' d' latest K ∧ Effect c d K off dirty c' d'
    | .ok (c', d') => CInv c' d' (upd latest off b) K ∧ Effect c d K off dirty c' d' := by
  have hupd : dirty = false → upd latest off b = latest := by
    intro hd; rw [hb hd]; exact upd_self _ _
  unfold Cache.write
  by_cases h0 : c.cap = 0
  · rw [if_pos h0]
    have hd : dirty = false := by
      cases hd : dirty with
      | false => rfl
      | true => have := hcap hd; omega
    rw [hupd hd]
    exact ⟨h, rfl, fun _ _ => rfl, fun _ hh => absurd rfl hh, fun o ho => Or.inl ho⟩
  · rw [if_neg h0]
    cases hf : c.pages.find off with
    | some e =>
      have he := h.entry off e hf
      simp only
      refine ⟨⟨touch_nodup h.lruNd off, by rw [keys_update]; exact h.keysNd, ?_, by rw [length_update]; exact h.size,
        by intro o ho; rw [keys_update] at ho; exact h.own o ho, ?_, ?_⟩, rfl, fun _ _ => rfl, fun _ hh => absurd rfl hh, ?_⟩
      · intro o
        rw [touch_mem, keys_update, ← h.same o]
        constructor
        · rintro (rfl | hh)
          · exact (h.same _).2 (find_some_mem hf)
          · exact hh
        · exact Or.inr
      · intro o e' ho
        rw [find_update _ _ _ _ ⟨e, hf⟩] at ho
        unfold upd
        by_cases hx : o = off
        · rw [if_pos hx] at ho ⊢
          injection ho with ho
          subst ho
          refine ⟨rfl, ?_⟩
          intro hd
          simp only [Bool.or_eq_false_iff] at hd
          simp only
          rw [hx, he.2 hd.1, he.1, hb hd.2]
        · rw [if_neg hx] at ho ⊢
          exact h.entry o e' ho
      · intro o hKo ho
        rw [find_update _ _ _ _ ⟨e, hf⟩] at ho
        unfold upd
        by_cases hx : o = off
        · rw [if_pos hx] at ho; cases ho
        · rw [if_neg hx] at ho ⊢
          exact h.miss o hKo ho
      · rintro o ⟨e', he', hd'⟩
        simp only at he'
        rw [find_update _ _ _ _ ⟨e, hf⟩] at he'
        by_cases hx : o = off
        · rw [if_pos hx] at he'
          injection he' with he'
          subst he'
          simp only [Bool.or_eq_true] at hd'
          rcases hd' with hd' | hd'
          · exact Or.inl ⟨e, hx ▸ hf, hd'⟩
          · exact Or.inr ⟨hx, hd'⟩
        · rw [if_neg hx] at he'
          exact Or.inl ⟨e', he', hd'⟩
    | none =>
      have hoff : off ∉ c.pages.keys := (find_none_iff _ _).1 hf
      have hofl : off ∉ c.lru := fun hh => hoff ((h.same off).1 hh)
      have hdoff : dirty = false → d off = b := by
        intro hd; rw [h.miss off hK hf, hb hd]
      simp only
      by_cases hfull : c.cap ≤ c.pages.length
      · rw [if_pos hfull, evictExcess_id io _ d h.size]
        simp only
        cases hl : c.lru.getLast? with
        | none =>
          exfalso
          have hlru : c.lru = [] := List.getLast?_eq_none_iff.1 hl
          have hlen := h.size
          cases hp : c.pages with
          | nil => rw [hp] at hfull; simp at hfull; omega
          | cons x xs =>
            have : x.1 ∈ c.lru := (h.same x.1).2 (by rw [hp]; simp [PageMap.keys])
            rw [hlru] at this; cases this
        | some v =>
          have hsplit := getLast_split hl
          have hvl : v ∈ c.lru := by rw [hsplit]; simp
          obtain ⟨e, he⟩ := mem_keys_find ((h.same v).1 hvl)
          have hve := h.entry v e he
          have hvoff : v ≠ off := by rintro rfl; exact hofl hvl
          have hnd := h.lruNd
          rw [hsplit, List.nodup_append] at hnd
          have hvnd : v ∉ c.lru.dropLast := fun hh => hnd.2.2 v hh v (by simp) rfl
          have hvK : K v := h.own v ((h.same v).1 hvl)
          -- the state after the victim was recycled, over a disk that holds the victim
          have hnew : ∀ d' : Disk, d' v = latest v → (∀ o, o ≠ v → d' o = d o) →
              CInv { c with lru := off :: c.lru.dropLast, pages := (off, ⟨b, dirty⟩) :: c.pages.remove v } d' (upd latest off b) K := by
            intro d' hv' ho'
            have hfind : ∀ x, PageMap.find ((off, ⟨b, dirty⟩) :: c.pages.remove v) x =
                if off = x then some ⟨b, dirty⟩ else if x = v then none else c.pages.find x := by
              intro x
              conv => lhs; unfold PageMap.find
              rw [find_remove]
            refine ⟨?_, ?_, ?_, ?_, ?_, ?_, ?_⟩
            · refine List.nodup_cons.2 ⟨?_, hnd.1⟩
              intro hh
              exact hofl (by rw [hsplit]; simp [hh])
            · show (off :: (c.pages.remove v).keys).Nodup
              rw [keys_remove]
              exact List.nodup_cons.2 ⟨fun hh => hoff (List.mem_filter.1 hh).1, h.keysNd.filter _⟩
            · intro o
              show o ∈ off :: c.lru.dropLast ↔ o ∈ off :: (c.pages.remove v).keys
              rw [keys_remove, List.mem_cons, List.mem_cons, List.mem_filter, ← h.same o]
              have hm : o ∈ c.lru ↔ o ∈ c.lru.dropLast ∨ o = v := by
                conv => lhs; rw [hsplit]
                rw [List.mem_append, List.mem_singleton]
              rw [hm]
              simp only [ne_eq, decide_eq_true_eq]
              constructor
              · rintro (hh | hh)
                · exact Or.inl hh
                · exact Or.inr ⟨Or.inl hh, by rintro rfl; exact hvnd hh⟩
              · rintro (hh | ⟨hh | hh, hne⟩)
                · exact Or.inl hh
                · exact Or.inr hh
                · exact absurd hh hne
            · have h1 := length_filter_ne' h.keysNd ((h.same v).1 hvl)
              rw [← keys_remove] at h1
              unfold PageMap.keys at h1
              rw [List.length_map, List.length_map] at h1
              have := h.size
              simp only [List.length_cons]
              omega
            · intro o ho
              have ho : o ∈ off :: (c.pages.remove v).keys := ho
              rw [keys_remove] at ho
              rcases List.mem_cons.1 ho with rfl | ho
              · exact hK
              · exact h.own o (List.mem_filter.1 ho).1
            · intro o e' he'
              simp only [hfind] at he'
              unfold upd
              by_cases hx : off = o
              · subst hx
                rw [if_pos rfl] at he' ⊢
                injection he' with he'
                subst he'
                refine ⟨rfl, ?_⟩
                intro hd
                rw [ho' off (Ne.symm hvoff)]
                exact hdoff hd
              · rw [if_neg hx] at he'
                rw [if_neg (Ne.symm hx)]
                by_cases hxv : o = v
                · rw [if_pos hxv] at he'; cases he'
                · rw [if_neg hxv] at he'
                  rw [ho' o hxv]
                  exact h.entry o e' he'
            · intro o hKo ho
              simp only [hfind] at ho
              unfold upd
              by_cases hx : off = o
              · rw [if_pos hx] at ho; cases ho
              · rw [if_neg hx] at ho
                rw [if_neg (Ne.symm hx)]
                by_cases hxv : o = v
                · rw [hxv]; exact hv'
                · rw [if_neg hxv] at ho
                  rw [ho' o hxv]
                  exact h.miss o hKo ho
          have hdirt : ∀ o, Dirty { c with lru := off :: c.lru.dropLast, pages := (off, ⟨b, dirty⟩) :: c.pages.remove v } o →
              Dirty c o ∨ (o = off ∧ dirty = true) := by
            rintro o ⟨e', he', hd'⟩
            simp only at he'
            unfold PageMap.find at he'
            rw [find_remove] at he'
            by_cases hx : off = o
            · rw [if_pos hx] at he'
              injection he' with he'
              subst he'
              exact Or.inr ⟨hx.symm, hd'⟩
            · rw [if_neg hx] at he'
              by_cases hxv : o = v
              · rw [if_pos hxv] at he'; cases he'
              · rw [if_neg hxv] at he'
                exact Or.inl ⟨e', he', hd'⟩
          simp only [he]
          by_cases hdt : e.dirty = true
          · rw [if_pos hdt]
            unfold pwrite
            cases hio : io v with
            | none =>
              simp only
              refine ⟨hnew _ (by simp [hve.1]) (by intro o ho; rw [if_neg ho]), rfl, ?_, ?_, hdirt⟩
              · intro o ho
                rw [if_neg]
                rintro rfl; exact ho hvK
              · intro o ho
                by_cases hx : o = v
                · subst hx; exact ⟨e, he, hdt⟩
                · rw [if_neg hx] at ho; exact absurd rfl ho
            | some junk =>
              simp only
              refine ⟨⟨h.lruNd, h.keysNd, h.same, h.size, h.own, ?_, ?_⟩, rfl, ?_, ?_, fun o ho => Or.inl ho⟩
              · intro o e' he'
                refine ⟨(h.entry o e' he').1, ?_⟩
                intro hd
                by_cases hx : o = v
                · subst hx
                  rw [he] at he'
                  injection he' with he'
                  subst he'
                  rw [hdt] at hd; cases hd
                · rw [if_neg hx]; exact (h.entry o e' he').2 hd
              · intro o hKo ho
                by_cases hx : o = v
                · subst hx; rw [he] at ho; cases ho
                · rw [if_neg hx]; exact h.miss o hKo ho
              · intro o ho
                rw [if_neg]
                rintro rfl; exact ho hvK
              · intro o ho
                by_cases hx : o = v
                · subst hx; exact ⟨e, he, hdt⟩
                · rw [if_neg hx] at ho; exact absurd rfl ho
          · rw [if_neg hdt]
            simp only
            refine ⟨hnew d ?_ (fun _ _ => rfl), rfl, fun _ _ => rfl, fun _ hh => absurd rfl hh, hdirt⟩
            rw [hve.2 (by simpa using hdt), hve.1]
      · rw [if_neg hfull]
        have hfind : ∀ x, PageMap.find ((off, ⟨b, dirty⟩) :: c.pages) x = if off = x then some ⟨b, dirty⟩ else c.pages.find x := by
          intro x; rfl
        refine ⟨⟨List.nodup_cons.2 ⟨hofl, h.lruNd⟩, List.nodup_cons.2 ⟨hoff, h.keysNd⟩, ?_, ?_, ?_, ?_, ?_⟩, rfl, fun _ _ => rfl,
          fun _ hh => absurd rfl hh, ?_⟩
        · intro o
          show o ∈ off :: c.lru ↔ o ∈ off :: c.pages.keys
          rw [List.mem_cons, List.mem_cons, h.same o]
        · simp only [List.length_cons]; omega
        · intro o ho
          rcases List.mem_cons.1 (show o ∈ off :: c.pages.keys from ho) with rfl | ho
          · exact hK
          · exact h.own o ho
        · intro o e' he'
          simp only [hfind] at he'
          unfold upd
          by_cases hx : off = o
          · subst hx
            rw [if_pos rfl] at he' ⊢
            injection he' with he'
            subst he'
            exact ⟨rfl, hdoff⟩
          · rw [if_neg hx] at he'
            rw [if_neg (Ne.symm hx)]
            exact h.entry o e' he'
        · intro o hKo ho
          simp only [hfind] at ho
          unfold upd
          by_cases hx : off = o
          · rw [if_pos hx] at ho; cases ho
          · rw [if_neg hx] at ho
            rw [if_neg (Ne.symm hx)]
            exact h.miss o hKo ho
        · rintro o ⟨e', he', hd'⟩
          simp only [hfind] at he'
          by_cases hx : off = o
          · rw [if_pos hx] at he'
            injection he' with he'
            subst he'
            exact Or.inr ⟨hx.symm, hd'⟩
          · rw [if_neg hx] at he'
            exact Or.inl ⟨e', he', hd'⟩

/-- A flush, also one that fails, keeps the contents; a complete one leaves no dirty page among those visited. -/
theorem flushDirty_spec (io : Io) {latest : Disk} {K : Nat → Prop} : ∀ (order : List Nat) {c : Cache} {d : Disk} (_ : CInv c d latest K),
    match flushDirty io order c d with
    | .ub => False
    | .throws (c', d') => CInv c' d' latest K ∧ Effect c d K 0 false c' d'
    | .ok (c', d') => CInv c' d' latest K ∧ Effect c d K 0 false c' d' ∧ (∀ o ∈ order, ¬ Dirty c' o) ∧ c'.pages.keys = c.pages.keys
  | [], c, d, h => ⟨h, ⟨rfl, fun _ _ => rfl, fun _ hh => absurd rfl hh, fun o ho => Or.inl ho⟩, by simp, rfl⟩
  | off :: rest, c, d, h => by
    unfold flushDirty
    cases hf : c.pages.find off with
    | none =>
      simp only
      have ih := flushDirty_spec io rest h
      cases hr : flushDirty io rest c d with
      | ub => rw [hr] at ih; exact ih
      | throws s => rw [hr] at ih; exact ih
      | ok s =>
        rw [hr] at ih
        obtain ⟨c', d'⟩ := s
        obtain ⟨i1, i2, i3, i4⟩ := ih
        refine ⟨i1, i2, ?_, i4⟩
        intro o ho
        rcases List.mem_cons.1 ho with rfl | ho
        · rintro ⟨e, he, _⟩
          have := find_some_mem he
          rw [i4] at this
          exact (find_none_iff _ _).1 hf this
        · exact i3 o ho
    | some e =>
      have he := h.entry off e hf
      have hoK := h.own off (find_some_mem hf)
      simp only
      by_cases hdt : e.dirty = true
      · rw [if_pos hdt]
        unfold pwrite
        cases hio : io off with
        | some junk =>
          simp only
          refine ⟨⟨h.lruNd, h.keysNd, h.same, h.size, h.own, ?_, ?_⟩, rfl, ?_, ?_, fun o ho => Or.inl ho⟩
          · intro o e' he'
            refine ⟨(h.entry o e' he').1, ?_⟩
            intro hd
            by_cases hx : o = off
            · subst hx
              rw [hf] at he'
              injection he' with he'
              subst he'
              rw [hdt] at hd; cases hd
            · rw [if_neg hx]; exact (h.entry o e' he').2 hd
          · intro o hKo ho
            by_cases hx : o = off
            · subst hx; rw [hf] at ho; cases ho
            · rw [if_neg hx]; exact h.miss o hKo ho
          · intro o ho
            rw [if_neg]
            rintro rfl; exact ho hoK
          · intro o ho
            by_cases hx : o = off
            · subst hx; exact ⟨e, hf, hdt⟩
            · rw [if_neg hx] at ho; exact absurd rfl ho
        | none =>
          simp only
          have hnew : CInv { c with pages := c.pages.update off ⟨e.bytes, false⟩ } (fun o => if o = off then e.bytes else d o) latest K := by
            refine ⟨h.lruNd, by rw [keys_update]; exact h.keysNd, fun o => by rw [keys_update]; exact h.same o,
              by rw [length_update]; exact h.size, fun o ho => by rw [keys_update] at ho; exact h.own o ho, ?_, ?_⟩
            · intro o e' he'
              rw [find_update _ _ _ _ ⟨e, hf⟩] at he'
              by_cases hx : o = off
              · rw [if_pos hx] at he' ⊢
                injection he' with he'
                subst he'
                exact ⟨hx ▸ he.1, fun _ => rfl⟩
              · rw [if_neg hx] at he' ⊢
                exact h.entry o e' he'
            · intro o hKo ho
              rw [find_update _ _ _ _ ⟨e, hf⟩] at ho
              by_cases hx : o = off
              · rw [if_pos hx] at ho; cases ho
              · rw [if_neg hx] at ho ⊢
                exact h.miss o hKo ho
          have hdsub : ∀ o, Dirty { c with pages := c.pages.update off ⟨e.bytes, false⟩ } o → Dirty c o := by
            rintro o ⟨e', he', hd'⟩
            simp only at he'
            rw [find_update _ _ _ _ ⟨e, hf⟩] at he'
            by_cases hx : o = off
            · rw [if_pos hx] at he'
              injection he' with he'
              subst he'
              cases hd'
            · rw [if_neg hx] at he'
              exact ⟨e', he', hd'⟩
          have hnd : ¬ Dirty { c with pages := c.pages.update off ⟨e.bytes, false⟩ } off := by
            rintro ⟨e', he', hd'⟩
            simp only at he'
            rw [find_update _ _ _ _ ⟨e, hf⟩, if_pos rfl] at he'
            injection he' with he'
            subst he'
            cases hd'
          have hcomp : ∀ {c' : Cache} {d' : Disk}, Effect { c with pages := c.pages.update off ⟨e.bytes, false⟩ }
              (fun o => if o = off then e.bytes else d o) K 0 false c' d' → Effect c d K 0 false c' d' := by
            intro c' d' he2
            refine ⟨he2.cap, ?_, ?_, ?_⟩
            · intro o ho
              rw [he2.frame o ho]
              rw [if_neg]
              rintro rfl; exact ho hoK
            · intro o ho
              by_cases hx : o = off
              · subst hx; exact ⟨e, hf, hdt⟩
              · exact hdsub o (he2.chg o (by rw [if_neg hx]; exact ho))
            · intro o ho
              rcases he2.dirt o ho with hh | hh
              · exact Or.inl (hdsub o hh)
              · exact Or.inr hh
          have ih := flushDirty_spec io rest hnew
          cases hr : flushDirty io rest { c with pages := c.pages.update off ⟨e.bytes, false⟩ } (fun o => if o = off then e.bytes else d o) with
          | ub => rw [hr] at ih; exact ih
          | throws s => rw [hr] at ih; exact ⟨ih.1, hcomp ih.2⟩
          | ok s =>
            rw [hr] at ih
            obtain ⟨c', d'⟩ := s
            obtain ⟨i1, i2, i3, i4⟩ := ih
            refine ⟨i1, hcomp i2, ?_, by rw [i4, keys_update]⟩
            intro o ho
            rcases List.mem_cons.1 ho with rfl | ho
            · intro hd
              rcases i2.dirt _ hd with hh | hh
              · exact hnd hh
              · cases hh.2
            · exact i3 o ho
      · rw [if_neg hdt]
        have ih := flushDirty_spec io rest h
        cases hr : flushDirty io rest c d with
        | ub => rw [hr] at ih; exact ih
        | throws s => rw [hr] at ih; exact ih
        | ok s =>
          rw [hr] at ih
          obtain ⟨c', d'⟩ := s
          obtain ⟨i1, i2, i3, i4⟩ := ih
          refine ⟨i1, i2, ?_, i4⟩
          intro o ho
          rcases List.mem_cons.1 ho with rfl | ho
          · intro hd
            rcases i2.dirt _ hd with ⟨e', he', hd'⟩ | hh
            · rw [hf] at he'
              injection he' with he'
              subst he'
              exact hdt hd'
            · cases hh.2
          · exact i3 o ho

end Alaya.DiskPages
