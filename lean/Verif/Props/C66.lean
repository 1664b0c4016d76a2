import Verif.Model.DiskIo
import Verif.Lemmas.ListAux

/-
C66: a search computes only with bytes its own reads delivered, and a failed read is an error of the query it belongs to.
-/
namespace Alaya.DiskIo

/-- Every record used is the device's record of that node. -/
def Honest {α : Type} (dev : Nat → α) (used : List (Nat × α)) : Prop := ∀ p ∈ used, p.2 = dev p.1

/-- Completions that belong to requests `D`, all successful, with their bytes in place. -/
structure Landed {α : Type} (dev : Nat → α) (s : St α) (reqs D : List (Nat × Nat)) : Prop where
  done : s.done = D.map fun p => (p.1, true)
  perm : reqs.Perm (s.out ++ D)
  bytes : ∀ p ∈ D, s.buf p.2 = dev p.1
  slots : (reqs.map (·.2)).Nodup

structure Inv {α : Type} (dev : Nat → α) (s : St α) : Prop where
  honest : Honest dev s.used
  quiet : s.threw = false
  idle : s.mode = .idle → s.out = [] ∧ s.done = []
  busy : s.mode = .busy → ∃ D, Landed dev s s.fly D ∧ (s.fly.map (·.1)).Nodup ∧ (s.fly.map (·.2) ++ s.free).Nodup
  reading : ∀ ids ck, s.mode = .reading ids ck → (∃ D, Landed dev s ids.zipIdx D) ∧ s.fly = [] ∧ s.free.Nodup

theorem zipIdx_slots (ids : List Nat) : (ids.zipIdx.map (·.2)).Nodup := by
  rw [List.zipIdx_map_snd]
  exact List.nodup_range'

theorem perm_eraseIdx {β : Type} : ∀ (l : List β) (i : Nat) (h : i < l.length), l.Perm (l[i] :: l.eraseIdx i)
  | _ :: _, 0, _ => List.Perm.refl _
  | a :: l, i + 1, h => by
    rw [List.getElem_cons_succ, List.eraseIdx_cons_succ]
    exact ((perm_eraseIdx l i (Nat.lt_of_succ_lt_succ h)).cons a).trans (List.Perm.swap _ _ _)

/-- A completion lands in its own buffer. -/
theorem Landed.complete {α : Type} {dev : Nat → α} {s : St α} {reqs D : List (Nat × Nat)} (h : Landed dev s reqs D) {i id slot : Nat}
    (hi : s.out[i]? = some (id, slot)) :
    Landed dev { s with
      buf := fun j => if j = slot then dev id else s.buf j
      out := s.out.eraseIdx i
      done := s.done ++ [(id, true)] } reqs (D ++ [(id, slot)]) := by
  have hlt := (List.getElem?_eq_some_iff.mp hi).1
  have hget := (List.getElem?_eq_some_iff.mp hi).2
  have hpe : s.out.Perm ((id, slot) :: s.out.eraseIdx i) := by
    rw [← hget]
    exact perm_eraseIdx s.out i hlt
  have hp : reqs.Perm (s.out.eraseIdx i ++ (D ++ [(id, slot)])) := by
    refine h.perm.trans ((List.Perm.append_right D hpe).trans ?_)
    rw [← List.append_assoc]
    exact (List.perm_append_singleton (id, slot) (s.out.eraseIdx i ++ D)).symm
  refine ⟨?_, hp, ?_, h.slots⟩
  · simp only
    rw [h.done, List.map_append]; rfl
  · intro p hpm
    simp only
    rcases List.mem_append.mp hpm with q | q
    · have hne : p.2 ≠ slot := by
        intro he
        have hnd := (hp.map (·.2)).nodup_iff.mp h.slots
        rw [List.map_append, List.map_append, List.nodup_append, List.nodup_append] at hnd
        exact hnd.2.1.2.2 _ (List.mem_map_of_mem q) slot (by simp) he
      rw [if_neg hne]
      exact h.bytes p q
    · rw [List.mem_singleton.mp q]
      simp only [if_true]

theorem find_fly {fly : List (Nat × Nat)} {id slot : Nat} (hn : (fly.map (·.1)).Nodup) (hm : (id, slot) ∈ fly) :
    fly.find? (fun p => p.1 = id) = some (id, slot) := by
  induction fly with
  | nil => cases hm
  | cons a l ih =>
    rw [List.map_cons, List.nodup_cons] at hn
    rw [List.find?_cons]
    rcases List.mem_cons.mp hm with q | q
    · rw [← q]
      simp
    · have : ¬ a.1 = id := by
        rintro rfl
        exact hn.1 (List.mem_map.mpr ⟨_, q, rfl⟩)
      simp only [this, decide_false]
      exact ih hn.2 q

theorem step_inv {α : Type} {dev : Nat → α} {slots : Nat} {s s' : St α} {o : Op} (h : Inv dev s) (ho : ∀ i, o ≠ .fail i)
    (hs : step dev slots o s = some s') : Inv dev s' := by
  obtain ⟨h1, h0, h2, h3, h4⟩ := h
  cases o with
  | fail i => exact absurd rfl (ho i)
  | complete i =>
    change complete dev i s = some s' at hs
    unfold complete at hs
    cases hi : s.out[i]? with
    | none => rw [hi] at hs; cases hs
    | some p =>
      obtain ⟨id, slot⟩ := p
      rw [hi] at hs
      injection hs with hs
      subst hs
      refine ⟨h1, h0, ?_, ?_, ?_⟩
      · intro hm
        rw [(h2 hm).1] at hi
        cases hi
      · intro hm
        obtain ⟨D, hD, hn, hf⟩ := h3 hm
        exact ⟨_, hD.complete hi, hn, hf⟩
      · intro ids ck hm
        obtain ⟨⟨D, hD⟩, hf⟩ := h4 ids ck hm
        exact ⟨⟨_, hD.complete hi⟩, hf⟩
  | start =>
    change start slots s = some s' at hs
    unfold start at hs
    split at hs
    · rename_i hm
      injection hs with hs
      subst hs
      obtain ⟨e1, e2⟩ := h2 hm
      refine ⟨h1, h0, (by intro q; cases q), ?_, (by intro _ _ q; cases q)⟩
      intro _
      refine ⟨[], ⟨e2, ?_, by simp, by simp⟩, by simp, ?_⟩
      · simp only [e1]; exact List.Perm.refl _
      · simp only [List.map_nil, List.nil_append]
        exact List.nodup_range
    · cases hs
  | submit id =>
    change submit id s = some s' at hs
    unfold submit at hs
    split at hs
    · rename_i hm
      obtain ⟨D, hD, hn, hf⟩ := h3 hm.1
      split at hs
      · cases hs
      · rename_i slot free hfree
        injection hs with hs
        subst hs
        rw [hfree] at hf
        have hp : (s.fly ++ [(id, slot)]).map (·.2) ++ free = s.fly.map (·.2) ++ slot :: free := by
          rw [List.map_append, List.append_assoc]; rfl
        refine ⟨h1, h0, ?_, ?_, ?_⟩
        · intro q; rw [hm.1] at q; cases q
        · intro _
          refine ⟨D, ⟨hD.done, ?_, hD.bytes, ?_⟩, ?_, ?_⟩
          · simp only
            refine (List.Perm.append_right _ hD.perm).trans ?_
            rw [List.append_assoc, List.append_assoc]
            exact List.Perm.append_left _ List.perm_append_comm
          · simp only
            have := hp ▸ hf
            rw [List.nodup_append] at this
            exact this.1
          · simp only
            rw [List.map_append, List.nodup_append]
            refine ⟨hn, by simp, ?_⟩
            intro a ha b hb
            simp at hb
            subst hb
            rintro rfl
            exact hm.2 ha
          · simp only
            rw [hp]; exact hf
        · intro ids ck q; rw [hm.1] at q; cases q
    · cases hs
  | event =>
    change event s = some s' at hs
    unfold event at hs
    split at hs
    · rename_i hm
      obtain ⟨D, hD, hn, hf⟩ := h3 hm.1
      have hd := hD.done
      cases hDc : D with
      | nil =>
        rw [hDc] at hd
        rw [hd] at hs
        cases hs
      | cons p D' =>
        obtain ⟨id, slot⟩ := p
        rw [hDc] at hd
        rw [hd, List.map_cons] at hs
        simp only at hs
        have hmem : (id, slot) ∈ s.fly := hD.perm.mem_iff.mpr (List.mem_append_right _ (by rw [hDc]; exact List.mem_cons_self))
        rw [find_fly hn hmem] at hs
        injection hs with hs
        subst hs
        have hpe := List.perm_cons_erase hmem
        refine ⟨?_, h0, ?_, ?_, ?_⟩
        · intro p hp
          rcases List.mem_append.mp hp with q | q
          · exact h1 p q
          · rw [List.mem_singleton.mp q]
            exact hD.bytes (id, slot) (by rw [hDc]; exact List.mem_cons_self)
        · intro q; rw [hm.1] at q; cases q
        · intro _
          refine ⟨D', ⟨rfl, ?_, ?_, ?_⟩, ?_, ?_⟩
          · simp only
            have h5 := hD.perm
            rw [hDc] at h5
            have h6 := (hpe.symm.trans h5).trans List.perm_middle
            exact List.Perm.cons_inv h6
          · intro p hp
            exact hD.bytes p (by rw [hDc]; exact List.mem_cons_of_mem _ hp)
          · have := (hpe.map (·.2)).nodup_iff.mp hD.slots
            rw [List.map_cons, List.nodup_cons] at this
            exact this.2
          · have := (hpe.map (·.1)).nodup_iff.mp hn
            rw [List.map_cons, List.nodup_cons] at this
            exact this.2
          · simp only
            refine List.Perm.nodup_iff ?_ |>.mp hf
            refine (List.Perm.append_right _ (hpe.map (·.2))).trans ?_
            rw [List.map_cons, List.cons_append]
            exact List.perm_middle.symm
        · intro ids ck q; rw [hm.1] at q; cases q
    · cases hs
  | readBegin ids ck =>
    change readBegin ids ck s = some s' at hs
    unfold readBegin at hs
    split at hs
    · rename_i hm
      injection hs with hs
      subst hs
      obtain ⟨D, hD, _, hf⟩ := h3 hm.1
      have hnil := hD.perm
      rw [hm.2] at hnil
      have hnil' := List.Perm.nil_eq hnil
      have ho : s.out = [] := (List.append_eq_nil_iff.mp hnil'.symm).1
      have hDn : D = [] := (List.append_eq_nil_iff.mp hnil'.symm).2
      refine ⟨h1, h0, (by intro q; cases q), (by intro q; cases q), ?_⟩
      intro ids' ck' q
      injection q with q1 q2
      subst q1
      refine ⟨⟨[], ⟨?_, ?_, by simp, zipIdx_slots _⟩⟩, hm.2, ?_⟩
      · simp only
        rw [hD.done, hDn]
      · simp only
        rw [ho, List.nil_append, List.append_nil]
      · rw [hm.2] at hf
        simpa using hf
    · cases hs
  | readEnd =>
    change readEnd s = some s' at hs
    unfold readEnd at hs
    split at hs
    · rename_i ids ck hm
      obtain ⟨⟨D, hD⟩, hfly, hfree⟩ := h4 ids ck hm
      split at hs
      · rename_i hlen
        have hl := hD.perm.length_eq
        rw [List.length_append, List.length_zipIdx] at hl
        rw [hD.done, List.length_map] at hlen
        have ho : s.out = [] := List.length_eq_zero_iff.mp (by omega)
        have hDl : D.length = ids.length := by omega
        have hdrop : s.done.drop ids.length = [] := by
          rw [hD.done]
          exact List.drop_eq_nil_of_le (by rw [List.length_map]; omega)
        split at hs
        · rename_i hc
          exfalso
          obtain ⟨_, hc⟩ := hc
          rw [hD.done, List.any_eq_true] at hc
          obtain ⟨e, he, hf⟩ := hc
          obtain ⟨p, _, rfl⟩ := List.mem_map.mp (List.mem_of_mem_take he)
          cases hf
        · injection hs with hs
          subst hs
          have hp := hD.perm
          rw [ho, List.nil_append] at hp
          refine ⟨?_, h0, (by intro q; cases q), ?_, (by intro _ _ q; cases q)⟩
          · intro p hpm
            rcases List.mem_append.mp hpm with q | q
            · exact h1 p q
            · obtain ⟨y, y1, rfl⟩ := List.mem_map.mp q
              exact hD.bytes y (hp.mem_iff.mp y1)
          · intro _
            refine ⟨[], ⟨hdrop, ?_, by simp, ?_⟩, ?_, ?_⟩
            · simp only [hfly, ho]; exact List.Perm.refl _
            · simp only [hfly]; exact List.nodup_nil
            · simp only [hfly]; exact List.nodup_nil
            · simp only [hfly]; exact hfree
      · cases hs
    · cases hs
  | finish =>
    change finish s = some s' at hs
    unfold finish at hs
    split at hs
    · rename_i hm
      injection hs with hs
      subst hs
      obtain ⟨D, hD, _, _⟩ := h3 hm.1
      have hnil := hD.perm
      rw [hm.2] at hnil
      have hnil' := List.Perm.nil_eq hnil
      have hDn : D = [] := (List.append_eq_nil_iff.mp hnil'.symm).2
      refine ⟨h1, h0, ?_, (by intro q; cases q), (by intro _ _ q; cases q)⟩
      intro _
      refine ⟨(List.append_eq_nil_iff.mp hnil'.symm).1, ?_⟩
      simp only
      rw [hD.done, hDn]
      rfl
    · cases hs

theorem run_inv {α : Type} {dev : Nat → α} {slots : Nat} : ∀ (os : List Op) {s : St α}, Inv dev s → (∀ i, Op.fail i ∉ os) →
    Inv dev (run dev slots os s)
  | [], s, h, _ => h
  | o :: os, s, h, ho => by
    unfold run
    cases e : step dev slots o s with
    | none => exact run_inv os h (fun i q => ho i (List.mem_cons_of_mem _ q))
    | some s' =>
      exact run_inv os (step_inv h (fun i q => ho i (q ▸ List.mem_cons_self)) e) (fun i q => ho i (List.mem_cons_of_mem _ q))

/-- As long as no read fails: whatever the searches ask for and in whatever order reads complete, every record used is the device's, no
query throws, and between queries nothing is outstanding. What is missing: reads that fail (refuted below). -/
theorem C66_no_failure_partial {α : Type} (dev : Nat → α) (slots : Nat) (buf : Nat → α) (os : List Op) (ho : ∀ i, Op.fail i ∉ os) :
    Honest dev (run dev slots os (init buf)).used ∧ (run dev slots os (init buf)).threw = false ∧
      ((run dev slots os (init buf)).mode = .idle → (run dev slots os (init buf)).out = []) := by
  have h : Inv dev (init buf) := ⟨(by intro p hp; cases hp), rfl, fun _ => ⟨rfl, rfl⟩, (by intro q; cases q), (by intro _ _ q; cases q)⟩
  have := run_inv (slots := slots) os h ho
  exact ⟨this.honest, this.quiet, fun hm => (this.idle hm).1⟩

/-- A read fails while another one is in flight: the query throws, and the next query takes the late completion for its own. Node 6 is
used with the bytes that happened to be in its buffer. -/
theorem C66_late_completion_refuted : ∃ os : List Op, (∃ i, os.count (.fail i) = 1) ∧
    (run (fun i => i + 100) 4 os (init fun _ => 0)).used = [(6, 0)] :=
  ⟨[.start, .submit 5, .submit 6, .fail 0, .event, .start, .submit 7, .submit 8, .submit 6, .complete 0, .event], ⟨0, by decide⟩, by decide⟩

/-- A blocking read that fails goes unnoticed: no exception, and the stale buffer is used as the node's record. -/
theorem C66_silent_failure_refuted : (run (fun i => i + 100) 4 [.start, .readBegin [5] false, .fail 0, .readEnd, .finish]
    (init fun _ => 0)).used = [(5, 0)] ∧
    (run (fun i => i + 100) 4 [.start, .readBegin [5] false, .fail 0, .readEnd, .finish] (init fun _ => 0)).threw = false ∧
    (run (fun i => i + 100) 4 [.start, .readBegin [5] false, .fail 0, .readEnd, .finish] (init fun _ => 0)).mode = .idle := by
  decide

/-- Two queries with out-of-order completions. -/
example : (run (fun i => i + 100) 2 [.start, .readBegin [9] false, .complete 0, .readEnd, .submit 5, .submit 6, .complete 1, .event,
    .submit 7, .complete 1, .complete 0, .event, .event, .finish, .start, .submit 6, .complete 0, .event] (init fun _ => 0)).used =
    [(9, 109), (6, 106), (7, 107), (5, 105), (6, 106)] := by decide

end Alaya.DiskIo
