import Verif.Props.C20

/-! C22: the available-item counter of `RawSpace`. -/
namespace Alaya.Seq
open Spec

/-- Ids that are inserted and not removed, as the user counts them from the returned ids. -/
def liveIds : List RawOp → List (Option Nat) → List Nat → List Nat
  | .insert _ :: ops, some id :: rs, live => liveIds ops rs (live ++ [id])
  | .remove id :: ops, some _ :: rs, live => liveIds ops rs (live.filter (· != id))
  | _ :: ops, _ :: rs, live => liveIds ops rs live
  | _, _, live => live

/-- The full property: after every history the counter is the number of live ids. -/
def AvlExact : Prop := ∀ (isz cap k : Nat) (fill : UInt8), InitOk isz cap k → ∀ ops : List RawOp,
  (∀ op ∈ ops, match op with | .insert d => d.length = isz | .remove id => id < cap) →
  ∃ s rets, (Raw.mk 0 0 (init isz cap fill (2 ^ k))).run ops = some (s, rets) ∧ s.avl = (liveIds ops rets []).length

/-- Removing the same id twice counts twice: one item is left, the counter says 0. -/
theorem C22_double_remove_refuted : ¬ AvlExact := by
  intro h
  obtain ⟨s, rets, e, he⟩ := h 2 4 2 0 (by unfold InitOk; omega) [.insert [1, 2], .insert [3, 4], .remove 0, .remove 0]
    (by intro op hop; simp at hop; rcases hop with rfl | rfl | rfl <;> simp)
  have hc : (Raw.mk 0 0 (init 2 4 0 (2 ^ 2))).run [.insert [1, 2], .insert [3, 4], .remove 0, .remove 0]
      = some (⟨2, 2, ⟨2, 4, 4, 2, 4, [1, 2, 0, 0, 3, 4, 0, 0, 0, 0, 0, 0, 0, 0, 0, 0], [2#8, 0#8, 0#8, 0#8]⟩⟩,
        [some 0, some 1, some 0, none]) := by decide
  rw [hc] at e
  obtain ⟨rfl, rfl⟩ := Prod.mk.inj (Option.some.inj e)
  revert he; decide

/-- A refused insert (storage full) counts as an item, and a remove of an id never handed out counts as a removal;
the latter alone drives the 32-bit counter of an empty space to 2^32 - 1. -/
theorem C22_refused_calls_counted :
    (((Raw.mk 0 0 (init 2 1 0 4)).run [.insert [1, 2], .insert [3, 4]]).map (fun p => (p.2, p.1.avl)) =
      some ([some 0, none], 2)) ∧
    (((Raw.mk 0 0 (init 2 1 0 4)).run [.remove 0]).map (fun p => (p.2, p.1.avl)) = some ([none], 2 ^ 32 - 1)) := by
  decide

/-- As long as no call is refused — every insert is below the capacity and every remove names a live id — the
counter equals the number of live ids and never wraps.  Missing for the full property: histories with a refused
call, where it is false (theorems above). -/
theorem C22_avl_exact_partial (isz cap k : Nat) (fill : UInt8) (hi : InitOk isz cap k) (ops : List RawOp)
    (hin : ∀ op ∈ ops, match op with | .insert d => d.length = isz | .remove id => id < cap)
    (s : Raw) (rets : List (Option Nat)) (hrun : (Raw.mk 0 0 (init isz cap fill (2 ^ k))).run ops = some (s, rets))
    (hok : none ∉ rets) : s.avl = (liveIds ops rets []).length ∧ s.deleteCnt ≤ s.itemCnt := by
  have main : ∀ (ops : List RawOp) (s : Raw) (l : Slots) (live : List Nat) (s' : Raw) (rets : List (Option Nat)),
      (∀ op ∈ ops, match op with | .insert d => d.length = isz | .remove id => id < cap) →
      Rep cap isz (List.replicate isz fill) s.store l → s.itemCnt = s.deleteCnt + live.length →
      live.Nodup → (∀ i, i ∈ live ↔ ∃ c, l[i]? = some (true, c)) → s.run ops = some (s', rets) → none ∉ rets →
      s'.itemCnt = s'.deleteCnt + (liveIds ops rets live).length := by
    intro ops
    induction ops with
    | nil => intro s l live s' rets _ _ hc _ _ e _; cases e; exact hc
    | cons op ops ih =>
      intro s l live s' rets hin r hc hnd hlive e hok
      simp only [Raw.run] at e
      split at e
      · cases e
      rename_i s1 r1 e1
      split at e
      · cases e
      rename_i s2 rs e2
      cases e
      have hrs : none ∉ rs := fun hh => hok (by simp [hh])
      have hr1 : r1 ≠ none := fun hh => hok (by simp [hh])
      have hin' : ∀ op ∈ ops, match op with | .insert d => d.length = isz | .remove id => id < cap :=
        fun o ho => hin o (by simp [ho])
      cases op with
      | insert d =>
        have hd : d.length = isz := hin (.insert d) (by simp)
        obtain ⟨st, f1, q⟩ := r.step (.insert d) hd
        have f1' : s.store.insert d = some (st, (l.step cap (List.replicate isz fill) (.insert d)).2) := f1
        simp only [Raw.step, Raw.insert, f1'] at e1
        obtain ⟨rfl, rfl⟩ := Prod.mk.inj (Option.some.inj e1)
        have hlt : l.length < cap := by
          rcases Nat.lt_or_ge l.length cap with hh | hh
          · exact hh
          · exact absurd (by simp only [Slots.step]; rw [if_neg (by omega)]) hr1
        simp only [Slots.step, if_pos hlt] at q ⊢
        simp only [liveIds]
        refine ih _ _ (live ++ [l.length]) _ _ hin' q ?_ ?_ ?_ e2 hrs
        · simp; omega
        · rw [List.nodup_append]
          refine ⟨hnd, by simp, ?_⟩
          intro a ha b hb
          simp at hb
          subst hb
          intro e
          subst e
          obtain ⟨c, hcc⟩ := (hlive _).mp ha
          simp at hcc
        · intro i
          rw [List.mem_append, hlive, List.getElem?_append]
          by_cases hil : i < l.length
          · rw [if_pos hil]
            constructor
            · rintro (h | h)
              · exact h
              · simp at h; omega
            · exact Or.inl
          · rw [if_neg hil]
            by_cases hie : i = l.length
            · subst hie; simp
            · rw [List.getElem?_eq_none (by omega), List.getElem?_eq_none (by simp; omega)]
              simp [hie]
      | remove id =>
        have hid : id < cap := hin (.remove id) (by simp)
        obtain ⟨st, f1, q⟩ := r.step (.remove id) hid
        have f1' : s.store.remove id = some (st, (l.step cap (List.replicate isz fill) (.remove id)).2) := f1
        simp only [Raw.step, Raw.remove, f1'] at e1
        obtain ⟨rfl, rfl⟩ := Prod.mk.inj (Option.some.inj e1)
        have hval : ∃ c, l[id]? = some (true, c) := by
          simp only [Slots.step] at hr1
          split at hr1
          · rename_i c hcc; exact ⟨c, hcc⟩
          · exact absurd rfl hr1
        obtain ⟨c, hcc⟩ := hval
        have hlen : id < l.length := by
          rcases Nat.lt_or_ge id l.length with hh | hh
          · exact hh
          · rw [List.getElem?_eq_none hh] at hcc; cases hcc
        have hmem : id ∈ live := (hlive id).mpr ⟨c, hcc⟩
        simp only [Slots.step, hcc] at q ⊢
        simp only [liveIds]
        have hcount : (live.filter (· != id)).length + 1 = live.length := by
          rw [← hnd.erase_eq_filter id, List.length_erase_of_mem hmem]
          have := List.length_pos_of_mem hmem
          omega
        refine ih _ _ (live.filter (· != id)) _ _ hin' q ?_ (hnd.filter _) ?_ e2 hrs
        · show s.itemCnt = s.deleteCnt + 1 + _
          omega
        · intro i
          rw [List.mem_filter, hlive, List.getElem?_set]
          by_cases hii : i = id
          · subst hii; simp [hlen]
          · rw [if_neg (fun e => hii e.symm)]; simp [hii]
  have hres := main ops _ [] [] s rets hin (Rep.init (cap := cap) fill hi.1 hi.2.1 hi.2.2) rfl (by simp) (by simp) hrun hok
  refine ⟨?_, by omega⟩
  unfold Raw.avl
  rw [if_pos (by omega)]
  omega

example : ∃ s, (Raw.mk 0 0 (init 2 4 0 4)).run [.insert [1, 2], .insert [3, 4], .remove 0] = some (s, [some 0, some 1, some 0]) ∧
    s.avl = 1 ∧ liveIds [.insert [1, 2], .insert [3, 4], .remove 0] [some 0, some 1, some 0] [] = [1] := by
  exact ⟨_, rfl, by decide, by decide⟩

end Alaya.Seq
