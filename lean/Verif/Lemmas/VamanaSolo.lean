import Verif.Lemmas.VamanaRun
import Mathlib.Logic.Relation

namespace Alaya.VBuild
open Alaya.Pools Alaya.Spec

/-- What a step of a thread changes: the thread, one list, the counter of the loop. -/
inductive Eff (c : Cfg) (s : State) (x : Thr) : Thr → Option (Nat × List Nat) → Nat → Prop where
  | take : x.ph = .idle → x.todo = [] → s.next < c.n →
      Eff c s x ⟨List.range' s.next (min c.chunk (c.n - s.next)), .idle, x.sc⟩ none (s.next + min c.chunk (c.n - s.next))
  | start (node : Nat) (rest : List Nat) (s0 s1 : Scratch) : x.ph = .idle → x.todo = node :: rest → s.stage = .link →
      x.sc.prepare c.n c.L = some s0 → s0.visit (c.dist node) c.medoid = some s1 → Eff c s x ⟨rest, .search node [], s1⟩ none s.next
  | keep (node : Nat) (rest l : List Nat) : x.ph = .idle → x.todo = node :: rest → s.stage = .cleanup → s.g[node]? = some l →
      l.length ≤ c.R → Eff c s x ⟨rest, .idle, x.sc⟩ none s.next
  | copy (node : Nat) (rest l : List Nat) : x.ph = .idle → x.todo = node :: rest → s.stage = .cleanup → s.g[node]? = some l →
      c.R < l.length → Eff c s x ⟨rest, .redo node l none, x.sc⟩ none s.next
  | expand (node : Nat) (pool : List Nbr) (q : NPQ) (nb : Nbr) (nbrs : List Nat) (sc : Scratch) : x.ph = .search node pool →
      x.sc.pool.hasUnexpanded = true → x.sc.pool.closest = some (q, nb) → s.g[nb.id]? = some nbrs →
      Scratch.visitAll { x.sc with pool := q } (c.dist node) nbrs = some sc → Eff c s x ⟨x.todo, .search node (pool ++ [nb]), sc⟩ none s.next
  | own (node : Nat) (pool : List Nbr) (l : List Nat) : x.ph = .search node pool → x.sc.pool.hasUnexpanded = false →
      c.prune node (pool.filter (fun p => p.id ≠ node)) = some l → Eff c s x ⟨x.todo, .rev node l, x.sc⟩ (some (node, l)) s.next
  | done (node : Nat) : x.ph = .rev node [] → Eff c s x ⟨x.todo, .idle, x.sc⟩ none s.next
  | same (node des : Nat) (rest l : List Nat) : x.ph = .rev node (des :: rest) → s.g[des]? = some l → node ∈ l →
      Eff c s x ⟨x.todo, .rev node rest, x.sc⟩ none s.next
  | add (node des : Nat) (rest l : List Nat) : x.ph = .rev node (des :: rest) → s.g[des]? = some l → node ∉ l → l.length < c.slack →
      Eff c s x ⟨x.todo, .rev node rest, x.sc⟩ (some (des, l ++ [node])) s.next
  | full (node des : Nat) (rest l : List Nat) : x.ph = .rev node (des :: rest) → s.g[des]? = some l → node ∉ l → ¬ l.length < c.slack →
      Eff c s x ⟨x.todo, .redo des (l ++ [node]) (some (node, rest)), x.sc⟩ none s.next
  | redo (des : Nat) (snap l : List Nat) (back : Option (Nat × List Nat)) : x.ph = .redo des snap back →
      c.prune des (poolOf (c.dist des) des snap []) = some l → Eff c s x ⟨x.todo, after back, x.sc⟩ (some (des, l)) s.next

theorem run_eff {c : Cfg} {s s' : State} {t : Nat} (e : s.run c t = .ok s') :
    ∃ x x' p nx, s.thr[t]? = some x ∧ Eff c s x x' p nx ∧ s' = ⟨s.stage, nx, put p s.g, s.thr.set t x'⟩ := by
  unfold State.run at e
  split at e
  · cases e
  · rename_i x ex
    split at e
    · rename_i hph
      split at e
      · rename_i htodo
        split at e
        · rename_i hn
          cases e
          exact ⟨x, _, none, _, ex, .take hph htodo hn, rfl⟩
        · cases e
      · rename_i node rest htodo
        split at e
        · rename_i hst
          unfold State.start at e
          split at e
          · cases e
          · rename_i s0 e0
            split at e
            · cases e
            · rename_i s1 e1
              cases e
              exact ⟨x, _, none, _, ex, .start node rest s0 s1 hph htodo hst e0 e1, rfl⟩
        · rename_i hst
          split at e
          · cases e
          · rename_i l hl
            cases e
            by_cases hR : c.R < l.length
            · refine ⟨x, _, none, _, ex, .copy node rest l hph htodo hst hl hR, ?_⟩
              simp [State.thread, put, hR]
            · refine ⟨x, _, none, _, ex, .keep node rest l hph htodo hst hl (by omega), ?_⟩
              simp [State.thread, put, hR]
        · cases e
    · rename_i node pool hph
      split at e
      · rename_i hu
        unfold State.expand at e
        split at e
        · cases e
        · rename_i q nb eq
          split at e
          · cases e
          · rename_i nbrs hg
            split at e
            · cases e
            · rename_i sc hv
              cases e
              exact ⟨x, _, none, _, ex, .expand node pool q nb nbrs sc hph hu eq hg hv, rfl⟩
      · rename_i hu
        unfold State.own State.write at e
        split at e
        · cases e
        · rename_i l hl
          split at e
          · cases e
          · rename_i s1 hs1
            split at hs1
            · cases hs1
              cases e
              exact ⟨x, _, some (node, l), _, ex, .own node pool l hph (by simpa using hu) hl, rfl⟩
            · cases hs1
    · rename_i node hph
      cases e
      exact ⟨x, _, none, _, ex, .done node hph, rfl⟩
    · rename_i node des rest hph
      unfold State.back State.write at e
      split at e
      · cases e
      · rename_i l hl
        split at e
        · rename_i hm
          cases e
          exact ⟨x, _, none, _, ex, .same node des rest l hph hl hm, rfl⟩
        · rename_i hm
          split at e
          · rename_i hs
            split at e
            · cases e
            · rename_i s1 hs1
              split at hs1
              · cases hs1
                cases e
                exact ⟨x, _, some (des, l ++ [node]), _, ex, .add node des rest l hph hl hm hs, rfl⟩
              · cases hs1
          · rename_i hs
            cases e
            exact ⟨x, _, none, _, ex, .full node des rest l hph hl hm hs, rfl⟩
    · rename_i des snap back hph
      unfold State.redo State.write at e
      split at e
      · cases e
      · rename_i l hl
        split at e
        · cases e
        · rename_i s1 hs1
          split at hs1
          · cases hs1
            cases e
            exact ⟨x, _, some (des, l), _, ex, .redo des snap l back hph hl, rfl⟩
          · cases hs1

theorem barrier_eff {c : Cfg} {s s' : State} (e : s.barrier c = .ok s') :
    c.n ≤ s.next ∧ (∀ x ∈ s.thr, x.ph = .idle ∧ x.todo = []) ∧
      ((s.stage = .link ∧ s' = { s with stage := .cleanup, next := 0 }) ∨ (s.stage = .cleanup ∧ s' = { s with stage := .fin })) := by
  unfold State.barrier at e
  split at e
  · rename_i h
    refine ⟨h.1, fun x hx => by simpa using List.all_eq_true.mp h.2 x hx, ?_⟩
    split at e
    · rename_i hst; cases e; exact .inl ⟨hst, rfl⟩
    · rename_i hst; cases e; exact .inr ⟨hst, rfl⟩
    · cases e
  · cases e

/-! ### One thread -/

/-- The entry point has a neighbour, or nothing but the entry point has been inserted. -/
def Solo (c : Cfg) (s : State) : Prop :=
  ∃ x, s.thr = [x] ∧
    ((∃ l, s.g[c.medoid]? = some l ∧ l ≠ [] ∧ ∀ pool, x.ph = .search c.medoid pool → pool = [] ∨ 2 ≤ x.sc.touched.length) ∨
     (s.stage = .link ∧ (∀ l ∈ s.g, l = []) ∧
        (x.ph = .idle ∨ (∃ v pool, x.ph = .search v pool ∧ x.sc.touched = [c.medoid]) ∨ x.ph = .rev c.medoid [])) ∨
     (s.stage = .link ∧ s.g[c.medoid]? = some [] ∧ ∃ v, v ≠ c.medoid ∧ x.ph = .rev v [c.medoid]))

theorem put_med {p : Option (Nat × List Nat)} {g : List (List Nat)} {m : Nat} {l : List Nat} (h : g[m]? = some l) (hl : l ≠ [])
    (hp : ∀ l', p = some (m, l') → l' ≠ []) : ∃ l', (put p g)[m]? = some l' ∧ l' ≠ [] := by
  have hlt := (List.getElem?_eq_some_iff.mp h).1
  obtain ⟨l', hl'⟩ : ∃ l', (put p g)[m]? = some l' := ⟨_, List.getElem?_eq_getElem (by rw [put_length]; exact hlt)⟩
  refine ⟨l', hl', ?_⟩
  rcases put_get hl' with h' | ⟨h', _⟩
  · exact hp l' h'
  · rw [h] at h'; cases h'; exact hl

theorem pool_other {c : Cfg} {d : Nat → Int} {sc : Scratch} {pool : List Nbr} (h : TInv c d sc pool) (m : Nat) (hl : 2 ≤ pool.length) :
    pool.filter (fun p => p.id ≠ m) ≠ [] := by
  obtain ⟨hnd, _⟩ := h.pool_lt
  intro hnil
  have hall : ∀ p ∈ pool, p.id = m := by
    intro p hp
    by_contra hne
    have : p ∈ pool.filter (fun p => p.id ≠ m) := List.mem_filter.mpr ⟨hp, by simpa using hne⟩
    rw [hnil] at this
    cases this
  match pool, hl, hall, hnd with
  | a :: b :: r, _, hall, hnd =>
    have h1 := hall a (by simp)
    have h2 := hall b (by simp)
    simp [h1, h2] at hnd

theorem solo_step {c : Cfg} (hc : c.Ok) (hn : 2 ≤ c.n) (hL : 2 ≤ c.L) (hsl : 0 < c.slack) {s s' : State} {a : Act} (h : Inv c s) (hs : Solo c s)
    (e : s.step c a = .ok s') : Solo c s' := by
  obtain ⟨x, hthr, hcase⟩ := hs
  cases a with
  | barrier =>
    obtain ⟨hge, hidle, hst⟩ := barrier_eff e
    obtain ⟨hx1, hx2⟩ := hidle x (by rw [hthr]; simp)
    have hA : ∃ l, s.g[c.medoid]? = some l ∧ l ≠ [] := by
      rcases hcase with ⟨l, h1, h2, _⟩ | ⟨hlink, hall, _⟩ | ⟨_, _, v, _, hv⟩
      · exact ⟨l, h1, h2⟩
      · exfalso
        obtain ⟨v, hv, hvm⟩ : ∃ v, v < c.n ∧ v ≠ c.medoid := by
          by_cases h0 : c.medoid = 0
          · exact ⟨1, by omega, by omega⟩
          · exact ⟨0, by omega, fun h' => h0 h'.symm⟩
        obtain ⟨l, hl⟩ : ∃ l, s.g[v]? = some l := ⟨_, List.getElem?_eq_getElem (by rw [h.glen]; exact hv)⟩
        refine h.written v l hvm hl (fun _ => ⟨by omega, ?_⟩) (hall l (List.mem_of_getElem? hl))
        intro y hy hm
        obtain ⟨h1, h2⟩ := hidle y hy
        rcases hm with hm | ⟨p, hm⟩
        · rw [h2] at hm; cases hm
        · rw [h1] at hm; cases hm
      · rw [hx1] at hv; cases hv
    obtain ⟨l, hl1, hl2⟩ := hA
    have hno : ∀ pool, x.ph = .search c.medoid pool → pool = [] ∨ 2 ≤ x.sc.touched.length := by
      intro pool hp; rw [hx1] at hp; cases hp
    rcases hst with ⟨_, rfl⟩ | ⟨_, rfl⟩
    · exact ⟨x, hthr, .inl ⟨l, hl1, hl2, hno⟩⟩
    · exact ⟨x, hthr, .inl ⟨l, hl1, hl2, hno⟩⟩
  | run t =>
    obtain ⟨y, x', p, nx, ey, heff, rfl⟩ := run_eff e
    have hyx : y = x ∧ t = 0 := by
      rw [hthr] at ey
      cases t with
      | zero => simp at ey; exact ⟨ey.symm, rfl⟩
      | succ t => simp at ey
    obtain ⟨rfl, rfl⟩ := hyx
    have hxo := h.thr y (by rw [hthr]; simp)
    refine ⟨x', by simp [hthr], ?_⟩
    rcases hcase with ⟨l, h1, h2, h3⟩ | ⟨hlink, hall, hph⟩ | ⟨hlink, hm0, v, hvm, hph⟩
    · left
      have fin : (∀ l', p = some (c.medoid, l') → l' ≠ []) → (∀ pool, x'.ph = .search c.medoid pool → pool = [] ∨ 2 ≤ x'.sc.touched.length) →
          ∃ l, (put p s.g)[c.medoid]? = some l ∧ l ≠ [] ∧ ∀ pool, x'.ph = .search c.medoid pool → pool = [] ∨ 2 ≤ x'.sc.touched.length := by
        intro k1 k2
        obtain ⟨l', m1, m2⟩ := put_med h1 h2 k1
        exact ⟨l', m1, m2, k2⟩
      cases heff with
      | take => exact fin (by simp) (by simp)
      | start node rest s0 s1 => exact fin (by simp) (by intro pool hp; cases hp; exact .inl rfl)
      | keep => exact fin (by simp) (by simp)
      | copy => exact fin (by simp) (by simp)
      | expand node pool q nb nbrs sc hp hu eq hg hv =>
        refine fin (by simp) ?_
        intro pool' hp'
        right
        cases hp'
        have hxp := hxo.ph
        rw [hp] at hxp
        obtain ⟨_, _, hT, k1, k2⟩ := hxp
        obtain ⟨q', nb', eq', hT1, hnb⟩ := hT.expand hu
        rw [eq] at eq'
        cases eq'
        obtain ⟨sc', e2, hT2, m1, m2, m3⟩ := hT1.visitAll nbrs (h.lists _ _ hg).lt
        rw [hv] at e2
        cases e2
        rcases h3 pool hp with hnil | htwo
        · have ht := k1 hnil
          have hid : nb.id = c.medoid := by rw [ht] at hnb; simpa using hnb
          rw [hid, h1] at hg
          cases hg
          obtain ⟨b, hb⟩ := List.exists_mem_of_ne_nil _ h2
          have hbm : b ≠ c.medoid := fun h' => (h.lists _ _ h1).self (h' ▸ hb)
          have n1 := m1 c.medoid (by simp only [ht]; simp)
          have n2 := m2 b hb
          have := nodup_subset_length (l1 := [c.medoid, b]) (l2 := sc.touched) (by simp [Ne.symm hbm]) (by
            intro i hi
            simp at hi
            rcases hi with rfl | rfl
            · exact n1
            · exact n2)
          simpa using this
        · have := nodup_subset_length (l1 := y.sc.touched) (l2 := sc.touched) hT.tnd (by intro i hi; exact m1 i hi)
          exact Nat.le_trans htwo this
      | own node pool l' hp hu hl' =>
        refine fin ?_ (by simp)
        intro l'' hl''
        cases hl''
        have hxp := hxo.ph
        rw [hp] at hxp
        obtain ⟨_, _, hT, k1, k2⟩ := hxp
        obtain ⟨hnd, hsub⟩ := hT.pool_lt
        obtain ⟨l0, el, _, _, _, _, hne⟩ := Cfg.prune_spec hc (loc := c.medoid) (pool := pool.filter (fun p => p.id ≠ c.medoid))
          (hnd.sublist (List.filter_sublist.map _)) (by intro p hp; simpa using (List.mem_filter.mp hp).2)
        rw [hl'] at el
        cases el
        apply hne
        apply pool_other hT
        have hf := hT.full hu
        have htl : 2 ≤ y.sc.touched.length := by
          rcases h3 pool hp with hnil | h'
          · exfalso
            have ht := k1 hnil
            rw [hnil, ht] at hf
            have := hc.L
            simp at hf
            omega
          · exact h'
        omega
      | done => exact fin (by simp) (by simp)
      | same => exact fin (by simp) (by simp)
      | add node des rest l0 hp hg hm hlt => exact fin (by intro l'' hl''; cases hl''; simp) (by simp)
      | full => exact fin (by simp) (by simp)
      | redo des snap l' back hp hl' =>
        refine fin ?_ ?_
        · intro l'' hl''
          cases hl''
          have hxp := hxo.ph
          rw [hp] at hxp
          obtain ⟨hdes, hsn, hself, hlt, _, _⟩ := hxp
          obtain ⟨p1, p2, p3⟩ := poolOf_spec (c.dist c.medoid) c.medoid snap [] (by simp) (by simp)
          obtain ⟨l0, el, _, _, _, _, hne⟩ := Cfg.prune_spec hc (loc := c.medoid) p1 p2
          rw [hl'] at el
          cases el
          apply hne
          obtain ⟨a, ha⟩ := List.exists_mem_of_ne_nil _ hsn
          obtain ⟨q, hq, _⟩ := (p3 a).mpr (.inr ⟨ha, fun h' => hself (h' ▸ ha)⟩)
          exact List.ne_nil_of_mem hq
        · intro pool hpool
          cases back <;> cases hpool
    · -- nothing but the entry point
      cases heff with
      | take h1 => exact .inr (.inl ⟨hlink, hall, .inl rfl⟩)
      | start node rest s0 s1 h1 h2 h3 h4 h5 =>
        refine .inr (.inl ⟨hlink, hall, .inr (.inl ⟨node, [], rfl, ?_⟩)⟩)
        obtain ⟨t0, t1, f0, f1, _, ht⟩ := TInv.start hc (c.dist node) hxo.sc
        rw [h4] at f0
        cases f0
        rw [h5] at f1
        cases f1
        exact ht
      | keep _ _ _ _ _ h' => rw [hlink] at h'; cases h'
      | copy _ _ _ _ _ h' => rw [hlink] at h'; cases h'
      | expand node pool q nb nbrs sc hp hu eq hg hv =>
        refine .inr (.inl ⟨hlink, hall, .inr (.inl ⟨node, _, rfl, ?_⟩)⟩)
        have hnil := hall nbrs (List.mem_of_getElem? hg)
        subst hnil
        cases hv
        simp only
        rcases hph with h' | ⟨v, pl, h', ht⟩ | h'
        · rw [hp] at h'; cases h'
        · exact ht
        · rw [hp] at h'; cases h'
      | own node pool l' hp hu hl' =>
        have ht : y.sc.touched = [c.medoid] := by
          rcases hph with h' | ⟨v, pl, h', ht⟩ | h'
          · rw [hp] at h'; cases h'
          · exact ht
          · rw [hp] at h'; cases h'
        have hxp := hxo.ph
        rw [hp] at hxp
        obtain ⟨_, hnn, hT, k1, k2⟩ := hxp
        obtain ⟨hnd, hsub⟩ := hT.pool_lt
        have hpool : pool ≠ [] := by
          intro hnil
          have hf := hT.full hu
          rw [hnil, ht] at hf
          have := hc.L
          simp at hf
          omega
        obtain ⟨l0, el, hlen, _, hln, hsl0, hne⟩ := Cfg.prune_spec hc (loc := node) (pool := pool.filter (fun p => p.id ≠ node))
          (hnd.sublist (List.filter_sublist.map _)) (by intro p hp; simpa using (List.mem_filter.mp hp).2)
        rw [hl'] at el
        cases el
        have hmem : ∀ i ∈ l', i = c.medoid := by
          intro i hi
          obtain ⟨p, hp, rfl⟩ := hsl0 i hi
          have := hsub p (List.mem_filter.mp hp).1
          rw [ht] at this
          simpa using this
        by_cases hnm : node = c.medoid
        · have hl0 : l' = [] := by
            apply List.eq_nil_iff_forall_not_mem.mpr
            intro i hi
            obtain ⟨p, hp, hpi⟩ := hsl0 i hi
            have h1 : p.id ≠ node := by simpa using (List.mem_filter.mp hp).2
            exact h1 (by rw [hpi, hmem i hi, hnm])
          subst hl0
          refine .inr (.inl ⟨hlink, ?_, .inr (.inr (by rw [hnm]))⟩)
          intro l hl
          obtain ⟨i, hi⟩ := List.getElem?_of_mem hl
          change (put (some (node, [])) s.g)[i]? = some l at hi
          rcases put_get hi with h' | ⟨h', _⟩
          · cases h'; rfl
          · exact hall l (List.mem_of_getElem? h')
        · have hl1 : l' = [c.medoid] := by
            have hne' : l' ≠ [] := by
              apply hne
              obtain ⟨p, hp, hpe⟩ := List.mem_map.mp (k2 hpool)
              intro hnil
              have : p ∈ pool.filter (fun p => p.id ≠ node) := List.mem_filter.mpr ⟨hp, by simpa [hpe] using fun h => hnm h.symm⟩
              rw [hnil] at this
              cases this
            match l', hne', hmem, hln with
            | [a], _, hmem, _ => rw [hmem a (by simp)]
            | a :: b :: r, _, hmem, hln =>
              have h1 := hmem a (by simp)
              have h2 := hmem b (by simp)
              simp [h1, h2] at hln
          subst hl1
          refine .inr (.inr ⟨hlink, ?_, node, hnm, rfl⟩)
          obtain ⟨l, hl⟩ : ∃ l, s.g[c.medoid]? = some l := ⟨_, List.getElem?_eq_getElem (by rw [h.glen]; exact hc.n)⟩
          have := hall l (List.mem_of_getElem? hl)
          subst this
          simp only [put]
          rw [List.getElem?_set_ne hnm]
          exact hl
      | done node hp => exact .inr (.inl ⟨hlink, hall, .inl rfl⟩)
      | same node des rest l hp =>
        rcases hph with h' | ⟨v, pl, h', ht⟩ | h' <;> · rw [hp] at h'; cases h'
      | add node des rest l hp =>
        rcases hph with h' | ⟨v, pl, h', ht⟩ | h' <;> · rw [hp] at h'; cases h'
      | full node des rest l hp =>
        rcases hph with h' | ⟨v, pl, h', ht⟩ | h' <;> · rw [hp] at h'; cases h'
      | redo des snap l back hp =>
        rcases hph with h' | ⟨v, pl, h', ht⟩ | h' <;> · rw [hp] at h'; cases h'
    · -- the first reverse edge
      left
      cases heff with
      | take h1 => rw [hph] at h1; cases h1
      | start _ _ _ _ h1 => rw [hph] at h1; cases h1
      | keep _ _ _ h1 => rw [hph] at h1; cases h1
      | copy _ _ _ h1 => rw [hph] at h1; cases h1
      | expand _ _ _ _ _ _ h1 => rw [hph] at h1; cases h1
      | own _ _ _ h1 => rw [hph] at h1; cases h1
      | done _ h1 => rw [hph] at h1; cases h1
      | same node des rest l h1 h2 h3 =>
        rw [hph] at h1; cases h1
        rw [hm0] at h2; cases h2
        cases h3
      | add node des rest l h1 h2 h3 =>
        rw [hph] at h1; cases h1
        rw [hm0] at h2; cases h2
        refine ⟨[v], ?_, by simp, by simp⟩
        simp only [put, List.nil_append]
        rw [List.getElem?_set_self (by rw [h.glen]; exact hc.n)]
      | full node des rest l h1 h2 h3 h4 =>
        rw [hph] at h1; cases h1
        rw [hm0] at h2; cases h2
        exact absurd hsl h4
      | redo _ _ _ _ h1 => rw [hph] at h1; cases h1

theorem solo_init {c : Cfg} : Solo c (.init c 1) := by
  refine ⟨_, rfl, .inr (.inl ⟨rfl, ?_, .inl rfl⟩)⟩
  intro l hl
  exact List.eq_of_mem_replicate hl

/-! ### A list that is lost -/

/-- The steps of thread `t` until it has nothing left of what it has taken. -/
theorem drain {c : Cfg} (hc : c.Ok) (t : Nat) : ∀ (k : Nat) (s : State), s.mu c = k → Inv c s → s.stage = .link → s.next = c.n → t < s.thr.length →
    ∃ s', Relation.ReflTransGen (fun a b => a.run c t = .ok b) s s' ∧ Inv c s' ∧ s'.stage = .link ∧ s'.next = c.n ∧
      s'.thr.length = s.thr.length ∧ (∀ i, i ≠ t → s'.thr[i]? = s.thr[i]?) ∧ ∃ x, s'.thr[t]? = some x ∧ x.ph = .idle ∧ x.todo = [] := by
  intro k
  induction k using Nat.strongRecOn with
  | _ k ih =>
    intro s hk h hst hn ht
    obtain ⟨x, ex⟩ : ∃ x, s.thr[t]? = some x := ⟨_, List.getElem?_eq_getElem ht⟩
    by_cases hd : x.ph = .idle ∧ x.todo = []
    · exact ⟨s, .refl, h, hst, hn, rfl, fun _ _ => rfl, x, ex, hd.1, hd.2⟩
    · have hok := run_ok hc h t
      cases e : s.run c t with
      | ub => exact absurd e hok.1
      | blocked =>
        exfalso
        unfold State.run at e
        rw [ex] at e
        simp only at e
        cases hph : x.ph with
        | idle =>
          cases htodo : x.todo with
          | nil => exact hd ⟨hph, htodo⟩
          | cons node rest =>
            rw [hph, htodo, hst] at e
            simp only at e
            unfold State.start at e
            split at e
            · cases e
            · split at e <;> cases e
        | search node pool =>
          rw [hph] at e
          simp only at e
          split at e
          · unfold State.expand at e
            split at e
            · cases e
            · split at e
              · cases e
              · split at e <;> cases e
          · unfold State.own at e
            split at e
            · cases e
            · split at e <;> cases e
        | rev node rest =>
          rw [hph] at e
          cases rest with
          | nil => simp at e
          | cons des rest =>
            simp only at e
            unfold State.back at e
            split at e
            · cases e
            · split at e
              · cases e
              · split at e
                · split at e <;> cases e
                · cases e
        | redo des snap back =>
          rw [hph] at e
          simp only at e
          unfold State.redo at e
          split at e
          · cases e
          · split at e <;> cases e
      | ok s1 =>
        obtain ⟨h1, hmu⟩ := hok.2 s1 e
        obtain ⟨y, x', p, nx, ey, heff, hs1⟩ := run_eff e
        have hnx : nx = c.n := by
          cases heff with
          | take _ _ h' => omega
          | _ => exact hn
        have hst1 : s1.stage = .link := by rw [hs1]; exact hst
        have hn1 : s1.next = c.n := by rw [hs1]; exact hnx
        have hl1 : s1.thr.length = s.thr.length := by rw [hs1]; simp
        obtain ⟨s2, r, a1, a2, a3, a4, a5, a6⟩ := ih _ (hk ▸ hmu) s1 rfl h1 hst1 hn1 (by omega)
        refine ⟨s2, .head e r, a1, a2, a3, by omega, ?_, a6⟩
        intro i hi
        rw [a5 i hi, hs1]
        simp only
        exact List.getElem?_set_ne (Ne.symm hi)

/-- In the second loop an empty list stays empty. -/
theorem empty_stays {c : Cfg} {s s' : State} {a : Act} {m : Nat} (hst : s.stage ≠ .link) (hg : s.g[m]? = some [])
    (hno : ∀ x ∈ s.thr, ∀ snap back, x.ph ≠ .redo m snap back) (hrev : ∀ x ∈ s.thr, ∀ v r, x.ph ≠ .rev v r)
    (hsea : ∀ x ∈ s.thr, ∀ v r, x.ph ≠ .search v r) (hback : ∀ x ∈ s.thr, ∀ des snap b, x.ph ≠ .redo des snap (some b)) (e : s.step c a = .ok s') :
    s'.stage ≠ .link ∧ s'.g[m]? = some [] ∧ (∀ x ∈ s'.thr, ∀ snap back, x.ph ≠ .redo m snap back) ∧ (∀ x ∈ s'.thr, ∀ v r, x.ph ≠ .rev v r) ∧
      (∀ x ∈ s'.thr, ∀ v r, x.ph ≠ .search v r) ∧ (∀ x ∈ s'.thr, ∀ des snap b, x.ph ≠ .redo des snap (some b)) := by
  cases a with
  | barrier =>
    obtain ⟨_, _, hs⟩ := barrier_eff e
    rcases hs with ⟨h', _⟩ | ⟨_, rfl⟩
    · exact absurd h' hst
    · exact ⟨by simp, hg, hno, hrev, hsea, hback⟩
  | run t =>
    obtain ⟨x, x', p, nx, ex, heff, rfl⟩ := run_eff e
    have hx := List.mem_of_getElem? ex
    have key : ∀ (ph : Ph → Prop), (∀ y ∈ s.thr, ph y.ph) → ph x'.ph → ∀ y ∈ s.thr.set t x', ph y.ph := by
      intro ph h1 h2 y hy
      rcases mem_set hy with rfl | ⟨i, _, hi⟩
      · exact h2
      · exact h1 y (List.mem_of_getElem? hi)
    have fin : (put p s.g)[m]? = some [] → (x'.ph = .idle ∨ ∃ d l, d ≠ m ∧ x'.ph = .redo d l none) →
        s.stage ≠ .link ∧ (put p s.g)[m]? = some [] ∧ (∀ y ∈ s.thr.set t x', ∀ snap back, y.ph ≠ .redo m snap back) ∧
        (∀ y ∈ s.thr.set t x', ∀ v r, y.ph ≠ .rev v r) ∧
        (∀ y ∈ s.thr.set t x', ∀ v r, y.ph ≠ .search v r) ∧ (∀ y ∈ s.thr.set t x', ∀ des snap b, y.ph ≠ .redo des snap (some b)) := by
      intro k1 k2
      refine ⟨hst, k1, key (fun q => ∀ snap back, q ≠ .redo m snap back) hno ?_, key (fun q => ∀ v r, q ≠ .rev v r) hrev ?_,
        key (fun q => ∀ v r, q ≠ .search v r) hsea ?_, key (fun q => ∀ des snap b, q ≠ .redo des snap (some b)) hback ?_⟩
      · rcases k2 with k2 | ⟨d, l, hd, k2⟩
        · rw [k2]; simp
        · rw [k2]; intro _ _ h'; cases h'; exact hd rfl
      all_goals
        rcases k2 with k2 | ⟨d, l, hd, k2⟩ <;> rw [k2] <;> simp
    cases heff with
    | take => exact fin hg (.inl rfl)
    | start _ _ _ _ _ _ h' => exact absurd h' hst
    | keep => exact fin hg (.inl rfl)
    | copy node rest l _ _ _ hl hR =>
      refine fin hg (.inr ⟨node, l, ?_, rfl⟩)
      rintro rfl
      rw [hg] at hl
      cases hl
      simp at hR
    | expand _ _ _ _ _ _ h' => exact absurd h' (hsea x hx _ _)
    | own _ _ _ h' => exact absurd h' (hsea x hx _ _)
    | done _ h' => exact absurd h' (hrev x hx _ _)
    | same _ _ _ _ h' => exact absurd h' (hrev x hx _ _)
    | add _ _ _ _ h' => exact absurd h' (hrev x hx _ _)
    | full _ _ _ _ h' => exact absurd h' (hrev x hx _ _)
    | redo des snap l back hp hl =>
      have hdm : des ≠ m := by
        rintro rfl
        exact hno x hx _ _ hp
      refine fin ?_ (.inl ?_)
      · simp only [put]
        rw [List.getElem?_set_ne hdm]
        exact hg
      · cases back with
        | none => rfl
        | some b => exact absurd hp (hback x hx _ _ _)

end Alaya.VBuild
