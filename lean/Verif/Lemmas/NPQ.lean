import Verif.Lemmas.Pools

namespace Alaya.Pools
open Spec

/-- What a queue entry stands for. -/
def Nbr.key (n : Nbr) : Nat × Int := (n.id, n.dist)

/-- Ascending by (distance, id). -/
def leL (a b : Nat × Int) : Prop := a.2 < b.2 ∨ (a.2 = b.2 ∧ a.1 ≤ b.1)

theorem leL_trans (a b c : Nat × Int) (h1 : leL a b) (h2 : leL b c) : leL a c := by
  unfold leL at *; omega

theorem leL_antisymm {a b : Nat × Int} (h1 : leL a b) (h2 : leL b a) : a = b := by
  unfold leL at *
  obtain ⟨a1, a2⟩ := a
  obtain ⟨b1, b2⟩ := b
  simp only at h1 h2
  have : a1 = b1 := by omega
  have : a2 = b2 := by omega
  subst_vars; rfl

theorem lt_iff (a b : Nbr) : a.lt b = true ↔ leL a.key b.key ∧ a.key ≠ b.key := by
  unfold Nbr.lt leL Nbr.key
  simp only [Bool.or_eq_true, Bool.and_eq_true, decide_eq_true_eq, ne_eq, Prod.mk.injEq]
  omega

theorem lt_false_iff (a b : Nbr) : a.lt b = false ↔ leL b.key a.key := by
  rw [← Bool.not_eq_true, lt_iff]
  unfold leL Nbr.key
  simp only [ne_eq, Prod.mk.injEq]
  omega

structure QInv (cap : Nat) (q : NPQ) (off popped : List (Nat × Int)) : Prop where
  hcap : q.cap = cap
  dlen : cap + 1 ≤ q.data.length
  size : q.size ≤ cap
  best : Best leL cap (q.entries.map Nbr.key) off
  ond : off.Nodup
  cur : CurOk (fun e : Nbr => e.expanded) q.entries q.cur
  flag : ∀ e ∈ q.entries, e.expanded = true ↔ e.key ∈ popped
  pnd : popped.Nodup
  psub : ∀ x ∈ popped, x ∈ off

theorem QInv.new (cap : Nat) : QInv cap (NPQ.new cap) [] [] := by
  refine ⟨rfl, by simp [NPQ.new], by simp [NPQ.new], ?_, by simp, ?_, by simp [NPQ.new, NPQ.entries], by simp, by simp⟩
  · simpa [NPQ.entries, NPQ.new] using Best.nil
  · refine ⟨by simp [NPQ.new], ?_, ?_⟩
    · intro i e h; simp [NPQ.new] at h
    · intro e h; simp [NPQ.new, NPQ.entries] at h

theorem QInv.len {cap : Nat} {q : NPQ} {off popped : List (Nat × Int)} (h : QInv cap q off popped) :
    q.entries.length = q.size := by
  have h1 := h.dlen; have h2 := h.size; simp [NPQ.entries]; omega

theorem QInv.keys_nodup {cap : Nat} {q : NPQ} {off popped : List (Nat × Int)} (h : QInv cap q off popped) :
    (q.entries.map Nbr.key).Nodup := by
  obtain ⟨_, _, rest, hp, _⟩ := h.best
  exact (List.nodup_append.mp (hp.nodup_iff.mp h.ond)).1

/-- The entries that left the queue between `q` and `q'`. -/
def gone (q q' : NPQ) (k : Nat × Int) : Prop := k ∈ q.entries.map Nbr.key ∧ k ∉ q'.entries.map Nbr.key

/-- What the result of an insertion must say. -/
def ResOk (q q' : NPQ) (n : Nbr) (r : InsRes) : Prop :=
  (r.inserted = true ↔ n.key ∉ q.entries.map Nbr.key ∧ n.key ∈ q'.entries.map Nbr.key) ∧
  (r.evicted = true ↔ ∃ k, gone q q' k) ∧ (r.evicted = true → ∀ k, gone q q' k → k.1 = r.evictedId) ∧
  (∀ k k', gone q q' k → gone q q' k' → k = k')

theorem ResOk.refl (q : NPQ) (n : Nbr) : ResOk q q n {} := by
  refine ⟨?_, ?_, ?_, ?_⟩
  · constructor
    · intro h; cases h
    · rintro ⟨h1, h2⟩; exact absurd h2 h1
  · constructor
    · intro h; cases h
    · rintro ⟨k, h1, h2⟩; exact absurd h1 h2
  · intro h; cases h
  · rintro k k' ⟨h1, h2⟩; exact absurd h1 h2

theorem QInv.insert {cap : Nat} {q : NPQ} {off popped : List (Nat × Int)} (h : QInv cap q off popped) (n : Nbr)
    (hcons : ∀ x ∈ off, x.1 = n.id → x.2 = n.dist) :
    ∃ q' r, q.insert n = some (q', r) ∧ QInv cap q' (if n.key ∈ off then off else off ++ [n.key]) popped ∧
      ResOk q q' n r := by
  have h0 := h
  obtain ⟨hcap, dlen, hsize, best, ond, cur, flag, pnd, psub⟩ := h
  have hel := h0.len
  have hknd := h0.keys_nodup
  have hent : q.entries = q.data.take q.size := rfl
  have hget : ∀ i : Nat, i < q.size → q.entries[i]? = q.data[i]? := by
    intro i hi; rw [hent, List.getElem?_take, if_pos hi]
  have hsorted : ∀ (i j : Nat) (ei ej : Nbr), i ≤ j → j < q.size → q.data[i]? = some ei → q.data[j]? = some ej →
      leL ei.key ej.key := by
    intro i j ei ej hij hj hi hej
    by_cases he : i = j
    · subst he; rw [hi] at hej; cases hej; unfold leL; omega
    · have hpw := List.pairwise_iff_getElem.mp best.1
      have hle : (q.entries.map Nbr.key).length = q.size := by rw [List.length_map, hel]
      have := hpw i j (by omega) (by omega) (by omega)
      have g : ∀ (k : Nat) (ek : Nbr) (hk : k < (q.entries.map Nbr.key).length), q.data[k]? = some ek →
          (q.entries.map Nbr.key)[k] = ek.key := by
        intro k ek hk hke
        have : (q.entries.map Nbr.key)[k]? = some ek.key := by
          rw [List.getElem?_map, hget k (by omega), hke]; rfl
        rw [List.getElem?_eq_getElem hk] at this
        exact Option.some.inj this
      rw [g i ei (by omega) hi, g j ej (by omega) hej] at this
      exact this
  have hmono : ∀ (i j : Nat) (ei ej : Nbr), i ≤ j → j < q.size → q.data[i]? = some ei → q.data[j]? = some ej →
      n.lt ei = true → n.lt ej = true := by
    intro i j ei ej hij hj hi hej hg
    have hs := hsorted i j ei ej hij hj hi hej
    rw [lt_iff] at hg ⊢
    refine ⟨leL_trans _ _ _ hg.1 hs, ?_⟩
    intro heq
    rw [← heq] at hs
    exact hg.2 (leL_antisymm hg.1 hs)
  -- refused
  have hrefuse : q.size = cap → (∀ e ∈ q.entries, leL e.key n.key ∧ e.key ≠ n.key) →
      QInv cap q (if n.key ∈ off then off else off ++ [n.key]) popped := by
    intro hf hall
    by_cases hm : n.key ∈ off
    · rw [if_pos hm]; exact h0
    · rw [if_neg hm]
      refine ⟨hcap, dlen, hsize, ?_, ?_, cur, flag, pnd, fun x hx => by simp [psub x hx]⟩
      · refine Best.refuse best (by rw [List.length_map, hel, hf]) ?_
        intro e he
        obtain ⟨e', he', rfl⟩ := List.mem_map.mp he
        exact (hall e' he').1
      · rw [List.nodup_append]
        refine ⟨ond, by simp, ?_⟩
        intro a ha b hb
        simp at hb; subst hb
        intro hab; subst hab; exact hm ha
  have hplace : 0 < cap → (q.size = cap → ∀ e, q.data[q.size - 1]? = some e → leL n.key e.key) →
      ∃ q' r, q.place n = some (q', r) ∧ QInv cap q' (if n.key ∈ off then off else off ++ [n.key]) popped ∧
        ResOk q q' n r := by
    intro hc0 hlast
    unfold NPQ.place
    rcases bsearch_spec (gt := fun e => n.lt e) (stop := fun e => e.id == n.id) (size := q.size) (by omega) hmono q.size 0 q.size
      (by omega) (by omega) (Nat.le_refl _)
      (by intro i e hi; omega) (by intro i e h1 h2; omega) (by omega) with ⟨lo, e1, e2, e3, e4, e5⟩ | ⟨e1, i, e, hi1, hi2, hst, hg⟩
    rotate_left
    · -- duplicate
      rw [e1]
      simp only
      have hid : e.id = n.id := by simpa using hst
      have hem : e ∈ q.entries := by rw [hent]; exact List.mem_of_getElem? (by rw [← hent, hget i hi1]; exact hi2)
      have hko : e.key ∈ off := Best.mem best (List.mem_map.mpr ⟨e, hem, rfl⟩)
      have hkk : e.key = n.key := by
        have := hcons e.key hko hid
        unfold Nbr.key at this ⊢
        simp only at this
        rw [hid, this]
      refine ⟨q, {}, rfl, ?_, ResOk.refl q n⟩
      rw [if_pos (by rw [← hkk]; exact hko)]
      exact h0
    rw [e1]
    simp only
    -- the entry is not in the queue
    have hnotin : n.key ∉ q.entries.map Nbr.key := by
      intro hm
      obtain ⟨e, hem, hek⟩ := List.mem_map.mp hm
      obtain ⟨j, hj⟩ := List.getElem?_of_mem hem
      have hjl := (List.getElem?_eq_some_iff.mp hj).1
      rw [hel] at hjl
      have hjd : q.data[j]? = some e := by rw [← hget j hjl]; exact hj
      have hjlo : j < lo := by
        rcases Nat.lt_or_ge j lo with hh | hh
        · exact hh
        · have := e4 j e hh hjl hjd
          rw [lt_iff] at this
          exact absurd hek.symm this.2
      obtain ⟨el, hel1, hel2⟩ := e5 (by omega)
      have h1 := e3 (lo - 1) el (by omega) hel1
      rw [lt_false_iff] at h1
      have h2 := hsorted j (lo - 1) e el (by omega) (by omega) hjd hel1
      rw [hek] at h2
      have := leL_antisymm h1 h2
      have hid : el.id = n.id := congrArg Prod.fst this
      rw [hid] at hel2
      simp at hel2
    have hlosz : q.size = cap → lo < q.size := by
      intro hf
      rcases Nat.lt_or_ge lo q.size with hh | hh
      · exact hh
      · exfalso
        have hle : q.data[q.size - 1]? = some q.data[q.size - 1] := List.getElem?_eq_getElem (by omega)
        have a := hlast hf _ hle
        have b := e3 (q.size - 1) _ (by omega) hle
        rw [lt_false_iff] at b
        apply hnotin
        rw [leL_antisymm a b]
        exact List.mem_map.mpr ⟨_, List.mem_of_getElem? ((hget (q.size - 1) (by omega)).trans hle), rfl⟩
    have hlocap : lo < q.cap := by omega
    rw [if_pos hlocap]
    obtain ⟨d', f1, f2, f3⟩ := insertAt_spec (data := q.data) (lo := lo) (size := q.size) ⟨n.id, n.dist, false⟩ e2 (by omega)
    rw [f1]
    have hev : ∃ ev, (if q.size = q.cap then q.data[q.cap - 1]? else some ⟨0, 0, false⟩) = some ev := by
      by_cases hf : q.size = q.cap
      · rw [if_pos hf]; exact ⟨_, List.getElem?_eq_getElem (by omega)⟩
      · rw [if_neg hf]; exact ⟨_, rfl⟩
    obtain ⟨ev, hev⟩ := hev
    rw [hev]
    simp only
    have hsz : (if q.size < q.cap then q.size + 1 else q.size) = min cap (q.size + 1) := by
      rw [hcap]; split <;> omega
    rw [hsz]
    have htake : d'.take (min cap (q.size + 1)) =
        (q.entries.take lo ++ ⟨n.id, n.dist, false⟩ :: q.entries.drop lo).take (min cap (q.size + 1)) := f3 _ (by omega)
    have hkeys : (d'.take (min cap (q.size + 1))).map Nbr.key =
        ((q.entries.map Nbr.key).take lo ++ n.key :: (q.entries.map Nbr.key).drop lo).take cap := by
      rw [htake, List.map_take, List.map_append, List.map_cons, List.map_take, List.map_drop]
      have hl : (q.entries.map Nbr.key).length = q.size := by rw [List.length_map, hel]
      have hv : Nbr.key ⟨n.id, n.dist, false⟩ = n.key := rfl
      rw [hv]
      generalize q.entries.map Nbr.key = vs at hl
      rw [List.take_eq_take_iff]; simp; omega
    have hbest := Best.insert leL_trans best (lo := lo) (x := n.key) (by
        intro e he
        rw [← List.map_take, List.mem_map] at he
        obtain ⟨e', he', rfl⟩ := he
        obtain ⟨k, hk⟩ := List.getElem?_of_mem he'
        rw [List.getElem?_take] at hk
        split at hk
        · have hkl : k < q.size := by omega
          rw [hget k hkl] at hk
          have := e3 k e' (by omega) hk
          rwa [lt_false_iff] at this
        · cases hk) (by
        intro e he
        rw [← List.map_drop, List.mem_map] at he
        obtain ⟨e', he', rfl⟩ := he
        obtain ⟨k, hk⟩ := List.getElem?_of_mem he'
        rw [List.getElem?_drop] at hk
        have hkl := (List.getElem?_eq_some_iff.mp hk).1
        rw [hel] at hkl
        rw [hget _ hkl] at hk
        have := e4 (lo + k) e' (by omega) hkl hk
        rw [lt_iff] at this
        exact this.1)
    -- a new candidate
    have hnoff : n.key ∉ off := by
      intro hm
      obtain ⟨_, hl, rest, hp, hr⟩ := best
      rcases List.mem_append.mp (hp.mem_iff.mp hm) with h' | h'
      · exact hnotin h'
      · have hlp : off.length = q.size + rest.length := by rw [hp.length_eq]; simp [hel]
        have hrl := List.length_pos_of_mem h'
        rw [List.length_map, hel] at hl
        have hf : q.size = cap := by omega
        have hlo := hlosz hf
        have hle : q.data[lo]? = some q.data[lo] := List.getElem?_eq_getElem (by omega)
        have a := e4 lo _ (Nat.le_refl _) hlo hle
        rw [lt_iff] at a
        have b := hr _ h' _ (List.mem_map.mpr ⟨_, List.mem_of_getElem? (by rw [hget _ hlo]; exact hle), rfl⟩)
        exact a.2 (leL_antisymm a.1 b)
    rw [if_neg hnoff]
    have hmem : ∀ e ∈ d'.take (min cap (q.size + 1)), e = ⟨n.id, n.dist, false⟩ ∨ e ∈ q.entries := by
      intro e he
      rw [htake] at he
      rcases List.mem_append.mp (List.mem_of_mem_take he) with h' | h'
      · exact Or.inr (List.mem_of_mem_take h')
      · rcases List.mem_cons.mp h' with h' | h'
        · exact Or.inl h'
        · exact Or.inr (List.mem_of_mem_drop h')
    refine ⟨_, _, rfl, ⟨hcap, by rw [f2]; exact dlen, Nat.min_le_left _ _, ?_, ?_, ?_, ?_, pnd, ?_⟩, ?_⟩
    · show Best leL cap ((d'.take (min cap (q.size + 1))).map Nbr.key) _
      rw [hkeys]; exact hbest
    · rw [List.nodup_append]
      refine ⟨ond, by simp, ?_⟩
      intro a ha b hb
      simp at hb; subst hb
      intro hab; subst hab; exact hnoff ha
    · show CurOk _ (d'.take (min cap (q.size + 1))) _
      rw [htake]
      exact CurOk.insert cur rfl (by omega) (by omega) (by omega) (by omega)
    · intro e he
      rcases hmem e he with rfl | h'
      · show false = true ↔ n.key ∈ popped
        constructor
        · intro h; cases h
        · intro h; exact absurd (psub _ h) hnoff
      · exact flag e h'
    · intro x hx; simp [psub x hx]
    · -- the report
      have hkl : (q.entries.map Nbr.key).length = q.size := by rw [List.length_map, hel]
      have hknew : NPQ.entries ⟨d', min cap (q.size + 1), if lo < q.cur then lo else q.cur, q.cap⟩ =
        d'.take (min cap (q.size + 1)) := rfl
      unfold ResOk gone
      rw [hknew, hkeys]
      have hperm : ((q.entries.map Nbr.key).take lo ++ n.key :: (q.entries.map Nbr.key).drop lo).Perm
          (n.key :: q.entries.map Nbr.key) := by
        have := List.perm_middle (a := n.key) (l₁ := (q.entries.map Nbr.key).take lo) (l₂ := (q.entries.map Nbr.key).drop lo)
        rwa [List.take_append_drop] at this
      have hsnd : ((q.entries.map Nbr.key).take lo ++ n.key :: (q.entries.map Nbr.key).drop lo).Nodup :=
        hperm.nodup_iff.mpr (List.nodup_cons.mpr ⟨hnotin, hknd⟩)
      have hin : n.key ∈ ((q.entries.map Nbr.key).take lo ++ n.key :: (q.entries.map Nbr.key).drop lo).take cap := by
        apply List.mem_of_getElem? (i := lo)
        rw [List.getElem?_take, if_pos (by omega), List.getElem?_append_right (by simp; omega)]
        have : ((q.entries.map Nbr.key).take lo).length = lo := by rw [List.length_take, hkl]; omega
        rw [this, Nat.sub_self]; rfl
      -- what is gone
      have hgone : ∀ k, (k ∈ q.entries.map Nbr.key ∧
          k ∉ ((q.entries.map Nbr.key).take lo ++ n.key :: (q.entries.map Nbr.key).drop lo).take cap) ↔
          (q.size = cap ∧ (q.entries.map Nbr.key)[cap - 1]? = some k) := by
        intro k
        have hlen : ((q.entries.map Nbr.key).take lo ++ n.key :: (q.entries.map Nbr.key).drop lo).length = q.size + 1 := by
          rw [hperm.length_eq, List.length_cons, hkl]
        have hmid : ∀ i : Nat, lo ≤ i → ((q.entries.map Nbr.key).take lo ++ n.key :: (q.entries.map Nbr.key).drop lo)[i + 1]? =
            (q.entries.map Nbr.key)[i]? := by
          intro i hi
          have hl' : ((q.entries.map Nbr.key).take lo).length = lo := by rw [List.length_take, hkl]; omega
          rw [List.getElem?_append_right (by omega), hl', show i + 1 - lo = (i - lo) + 1 by omega, List.getElem?_cons_succ,
            List.getElem?_drop]
          congr 1; omega
        generalize hs : (q.entries.map Nbr.key).take lo ++ n.key :: (q.entries.map Nbr.key).drop lo = s at *
        constructor
        · rintro ⟨h1, h2⟩
          have hks : k ∈ s := hperm.mem_iff.mpr (by simp [h1])
          rw [← List.take_append_drop cap s, List.mem_append] at hks
          rcases hks with hks | hks
          · exact absurd hks h2
          · have hdl : (s.drop cap).length = q.size + 1 - cap := by rw [List.length_drop, hlen]
            have hf : q.size = cap := by
              have := List.length_pos_of_mem hks
              omega
            refine ⟨hf, ?_⟩
            obtain ⟨i, hi⟩ := List.getElem?_of_mem hks
            have hil := (List.getElem?_eq_some_iff.mp hi).1
            have hi0 : i = 0 := by omega
            subst hi0
            rw [List.getElem?_drop] at hi
            have := hmid (cap - 1) (by have := hlosz hf; omega)
            rw [show cap - 1 + 1 = cap + 0 by omega, hi] at this
            exact this.symm
        · rintro ⟨hf, hk⟩
          refine ⟨List.mem_of_getElem? hk, ?_⟩
          intro hm
          have hk' : s[cap]? = some k := by
            have := hmid (cap - 1) (by have := hlosz hf; omega)
            rw [show cap - 1 + 1 = cap by omega, hk] at this
            exact this
          obtain ⟨i, hi⟩ := List.getElem?_of_mem hm
          have hil := (List.getElem?_eq_some_iff.mp hi).1
          rw [List.length_take] at hil
          rw [List.getElem?_take, if_pos (by omega)] at hi
          obtain ⟨a1, a2⟩ := List.getElem?_eq_some_iff.mp hi
          obtain ⟨b1, b2⟩ := List.getElem?_eq_some_iff.mp hk'
          exact List.pairwise_iff_getElem.mp (List.nodup_iff_pairwise_ne.mp hsnd) i cap a1 b1 (by omega) (a2.trans b2.symm)
      refine ⟨⟨fun _ => ⟨hnotin, hin⟩, fun _ => rfl⟩, ?_, ?_, ?_⟩
      · show decide (q.size = q.cap) = true ↔ _
        rw [decide_eq_true_eq, hcap]
        constructor
        · intro hf
          have : cap - 1 < (q.entries.map Nbr.key).length := by omega
          exact ⟨_, (hgone _).mpr ⟨hf, List.getElem?_eq_getElem this⟩⟩
        · rintro ⟨k, hk⟩
          exact ((hgone k).mp hk).1
      · intro hevt k hk
        obtain ⟨hf, hk'⟩ := (hgone k).mp hk
        rw [← hcap] at hf
        rw [if_pos hf] at hev
        show k.1 = (if q.size = q.cap then ev.id else 0)
        rw [if_pos hf]
        rw [List.getElem?_map, hget _ (by omega), ← hcap, hev] at hk'
        have := Option.some.inj hk'
        rw [← this]; rfl
      · intro k k' hk hk'
        have a := ((hgone k).mp hk).2
        have b := ((hgone k').mp hk').2
        rw [a] at b
        exact Option.some.inj b
  unfold NPQ.insert
  by_cases hc0 : q.cap = 0
  · rw [if_pos hc0]
    refine ⟨q, {}, rfl, hrefuse (by omega) ?_, ResOk.refl q n⟩
    intro e he
    have := List.length_pos_of_mem he
    omega
  · rw [if_neg hc0]
    by_cases hf : q.size = q.cap
    · rw [if_pos hf, List.getElem?_eq_getElem (by omega)]
      simp only
      have hle : q.data[q.size - 1]? = some q.data[q.size - 1] := List.getElem?_eq_getElem (by omega)
      generalize q.data[q.size - 1] = last at *
      by_cases hlt : last.lt n = true
      · rw [if_pos hlt]
        refine ⟨q, {}, rfl, hrefuse (by omega) ?_, ResOk.refl q n⟩
        intro e he
        obtain ⟨j, hj⟩ := List.getElem?_of_mem he
        have hjl := (List.getElem?_eq_some_iff.mp hj).1
        rw [hel] at hjl
        rw [hget j hjl] at hj
        have hs := hsorted j (q.size - 1) e last (by omega) (by omega) hj hle
        rw [lt_iff] at hlt
        refine ⟨leL_trans _ _ _ hs hlt.1, ?_⟩
        intro heq
        rw [heq] at hs
        exact hlt.2 (leL_antisymm hlt.1 hs)
      · rw [if_neg hlt]
        refine hplace (by omega) ?_
        intro _ e he
        rw [hle] at he; cases he
        rw [Bool.not_eq_true, lt_false_iff] at hlt
        exact hlt
    · rw [if_neg hf]
      exact hplace (by omega) (fun h => absurd (h.trans hcap.symm) hf)

theorem QInv.closest {cap : Nat} {q : NPQ} {off popped : List (Nat × Int)} (h : QInv cap q off popped)
    (hn : q.hasUnexpanded = true) :
    ∃ q' x, q.closest = some (q', x) ∧ QInv cap q' off (popped ++ [x.key]) ∧ x.key ∈ q.entries.map Nbr.key ∧
      x.key ∉ popped ∧ (∀ y ∈ q.entries.map Nbr.key, y ∉ popped → leL x.key y) ∧
      q'.entries.map Nbr.key = q.entries.map Nbr.key := by
  have h0 := h
  obtain ⟨hcap, dlen, hsize, best, ond, cur, flag, pnd, psub⟩ := h
  have hel := h0.len
  have hknd := h0.keys_nodup
  have hent : q.entries = q.data.take q.size := rfl
  have hcs : q.cur < q.size := by simpa [NPQ.hasUnexpanded] using hn
  unfold NPQ.closest
  have hce : q.data[q.cur]? = some q.data[q.cur] := List.getElem?_eq_getElem (by omega)
  rw [hce]
  generalize q.data[q.cur] = e at *
  simp only
  have hec : q.entries[q.cur]? = some e := by rw [hent, List.getElem?_take, if_pos hcs, hce]
  have hem : e ∈ q.entries := List.mem_of_getElem? hec
  have hunc : e.expanded = false := cur.2.2 e hec
  obtain ⟨c', k1, k2, k3, k4, k5⟩ := skip_spec (data := q.data.set q.cur { e with expanded := true })
    (done := fun x => x.expanded) (size := q.size) (by simp; omega) (q.size - q.cur) q.cur (Nat.le_refl _) (by omega)
  rw [k1]
  simp only
  have hkey : Nbr.key { e with expanded := true } = e.key := rfl
  have hxm : e.key ∈ q.entries.map Nbr.key := List.mem_map.mpr ⟨e, hem, rfl⟩
  have hxp : e.key ∉ popped := by
    intro hh
    have := (flag e hem).mpr hh
    rw [hunc] at this; cases this
  have htake : NPQ.entries ⟨q.data.set q.cur { e with expanded := true }, q.size, c', q.cap⟩ =
      q.entries.set q.cur { e with expanded := true } := by
    show (q.data.set q.cur { e with expanded := true }).take q.size = _
    rw [List.take_set, hent]
  have hsame : (NPQ.entries ⟨q.data.set q.cur { e with expanded := true }, q.size, c', q.cap⟩).map Nbr.key =
      q.entries.map Nbr.key := by
    rw [htake, List.map_set]
    apply List.ext_getElem?
    intro i
    rw [List.getElem?_set]
    split
    · rename_i hi
      subst hi
      rw [if_pos (by rw [List.length_map, hel]; exact hcs), List.getElem?_map, hec, hkey]
      rfl
    · rfl
  have hdist : ∀ (i : Nat) (e' : Nbr), i ≠ q.cur → q.entries[i]? = some e' → e'.key ≠ e.key := by
    intro i e' hi he' heq
    have a : (q.entries.map Nbr.key)[i]? = some e'.key := by rw [List.getElem?_map, he']; rfl
    have b : (q.entries.map Nbr.key)[q.cur]? = some e'.key := by rw [List.getElem?_map, hec, heq]; rfl
    obtain ⟨hil, hia⟩ := List.getElem?_eq_some_iff.mp a
    obtain ⟨hjl, hjb⟩ := List.getElem?_eq_some_iff.mp b
    have hh := List.pairwise_iff_getElem.mp (List.nodup_iff_pairwise_ne.mp hknd)
    rcases Nat.lt_trichotomy i q.cur with hlt | heq' | hgt
    · exact hh i q.cur hil hjl hlt (hia.trans hjb.symm)
    · exact hi heq'
    · exact hh q.cur i hjl hil hgt (hjb.trans hia.symm)
  refine ⟨_, _, rfl, ⟨hcap, by simpa using dlen, hsize, ?_, ond, ?_, ?_, ?_, ?_⟩, hxm, hxp, ?_, hsame⟩
  · rw [hsame]; exact best
  · rw [htake]
    have hl : (q.entries.set q.cur { e with expanded := true }).length = q.size := by rw [List.length_set, hel]
    have hgs : ∀ i : Nat, i < q.size → (q.entries.set q.cur { e with expanded := true })[i]? =
        (q.data.set q.cur { e with expanded := true })[i]? := by
      intro i hi
      rw [← htake]
      show ((q.data.set q.cur { e with expanded := true }).take q.size)[i]? = _
      rw [List.getElem?_take, if_pos hi]
    refine ⟨by rw [hl]; exact k3, ?_, ?_⟩
    · intro i e' (hi : i < c') he'
      by_cases hic : i < q.cur
      · rw [List.getElem?_set, if_neg (by omega)] at he'
        exact cur.2.1 i e' hic he'
      · rw [hgs i (by omega)] at he'
        exact k4 i e' (by omega) hi he'
    · intro e' he'
      have hlt : c' < q.size := by rw [← hl]; exact (List.getElem?_eq_some_iff.mp he').1
      rw [hgs c' hlt] at he'
      obtain ⟨e'', a, b⟩ := k5 hlt
      rw [a] at he'; cases he'; exact b
  · intro e' he'
    rw [htake] at he'
    obtain ⟨i, hi⟩ := List.getElem?_of_mem he'
    rw [List.getElem?_set] at hi
    by_cases hic : q.cur = i
    · rw [if_pos hic] at hi
      subst hic
      rw [if_pos (by omega)] at hi
      cases hi
      rw [hkey]; simp
    · rw [if_neg hic] at hi
      have hm := List.mem_of_getElem? hi
      rw [flag e' hm, hkey]
      have := hdist i e' (fun h => hic h.symm) hi
      simp [this]
  · rw [List.nodup_append]
    refine ⟨pnd, by simp, ?_⟩
    intro a ha b hb
    simp at hb; subst hb
    intro hab; subst hab; exact hxp ha
  · intro x hx
    rcases List.mem_append.mp hx with h' | h'
    · exact psub x h'
    · simp at h'; subst h'; exact Best.mem best hxm
  · intro y hy hyp
    obtain ⟨e', he', rfl⟩ := List.mem_map.mp hy
    obtain ⟨i, hi⟩ := List.getElem?_of_mem he'
    have hic : q.cur ≤ i := by
      rcases Nat.lt_or_ge i q.cur with hh | hh
      · exact absurd ((flag e' he').mp (cur.2.1 i e' hh hi)) hyp
      · exact hh
    rw [hkey]
    by_cases hie : i = q.cur
    · subst hie; rw [hec] at hi; cases hi; unfold leL; omega
    · have hpw := List.pairwise_iff_getElem.mp best.1
      have hil := (List.getElem?_eq_some_iff.mp hi).1
      have hle : (q.entries.map Nbr.key).length = q.size := by rw [List.length_map, hel]
      have := hpw q.cur i (by omega) (by omega) (by omega)
      have g : ∀ (k : Nat) (ek : Nbr) (hk : k < (q.entries.map Nbr.key).length), q.entries[k]? = some ek →
          (q.entries.map Nbr.key)[k] = ek.key := by
        intro k ek hk hke
        have : (q.entries.map Nbr.key)[k]? = some ek.key := by rw [List.getElem?_map, hke]; rfl
        rw [List.getElem?_eq_getElem hk] at this
        exact Option.some.inj this
      rw [g _ _ (by omega) hec, g _ _ (by omega) hi] at this
      exact this

end Alaya.Pools
