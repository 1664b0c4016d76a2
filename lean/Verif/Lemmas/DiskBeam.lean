import Verif.Model.DiskBeam
import Verif.Spec.DiskBeam
import Verif.Lemmas.ListAux
import Verif.Lemmas.GreedySearch
import Verif.Lemmas.Prune

namespace Alaya.DiskBeam
open Alaya Alaya.Pools Alaya.Spec Alaya.DiskBeam.Spec

/-- Nodes that entered the frontier. -/
structure OffOk (c : Ctx) (t : TD) (off : List (Nat × Int)) : Prop where
  nd : (off.map (·.1)).Nodup
  vis : ∀ x ∈ off, x.1 ∈ t.vis
  lt : ∀ m ∈ t.vis, m < c.n
  live : ∀ x ∈ off, c.dead x.1 = false ∨ x.1 = c.medoid

theorem best_sub {cap : Nat} {keys off : List (Nat × Int)} (h : Best leL cap keys off) : ∀ x ∈ keys, x ∈ off := by
  obtain ⟨_, _, rest, hp, _⟩ := h
  exact fun x hx => hp.mem_iff.mpr (List.mem_append_left _ hx)

theorem best_ids_nodup {cap : Nat} {keys off : List (Nat × Int)} (h : Best leL cap keys off) (hn : (off.map (·.1)).Nodup) :
    (keys.map (·.1)).Nodup := by
  obtain ⟨_, _, rest, hp, _⟩ := h
  have := (hp.map (·.1)).nodup_iff.mp hn
  rw [List.map_append, List.nodup_append] at this
  exact this.1

theorem entries_ids (es : List Nbr) : (es.map Nbr.key).map (·.1) = es.map (·.id) := by
  rw [List.map_map]; rfl

theorem extract_good {c : Ctx} {list topK : Nat} {t : TD} {off popped : List (Nat × Int)} (hq : QInv list t.q off popped)
    (ho : OffOk c t off) : Good c.n c.dead topK (extract c topK t.q.entries) := by
  have hsub : ∀ e ∈ t.q.entries, e.key ∈ off := fun e he => best_sub hq.best _ (List.mem_map_of_mem he)
  have hsl : ((t.q.entries.filter fun e => !c.dead e.id).take topK).Sublist t.q.entries :=
    (List.take_sublist _ _).trans List.filter_sublist
  unfold extract
  refine ⟨?_, ?_, ?_, ?_, ?_⟩
  · rw [List.length_map, List.length_take]; omega
  · have h1 : (t.q.entries.map (·.id)).Nodup := by
      rw [← entries_ids]; exact best_ids_nodup hq.best ho.nd
    rw [List.map_map]
    exact h1.sublist (hsl.map _)
  · rw [List.pairwise_map]
    have h1 := hq.best.1
    rw [List.pairwise_map] at h1
    refine (h1.sublist hsl).imp ?_
    intro a b h
    unfold leL Nbr.key at h
    simp only at h ⊢
    omega
  · intro p hp
    obtain ⟨e, he, rfl⟩ := List.mem_map.mp hp
    exact ho.lt _ (ho.vis _ (hsub e (hsl.subset he)))
  · intro p hp
    obtain ⟨e, he, rfl⟩ := List.mem_map.mp hp
    have := (List.mem_filter.mp (List.mem_of_mem_take he)).2
    simpa using this

theorem release_cases (c : Ctx) (t : TD) (id : Nat) :
    release c t id = .error .thrown ∨ ∃ t', release c t id = .ok t' ∧ t'.q = t.q ∧ t'.vis = t.vis ∧ t'.exact = t.exact := by
  unfold release
  by_cases h1 : id ≥ c.bits
  · rw [if_pos h1]; exact .inl rfl
  · rw [if_neg h1]
    split
    · exact .inr ⟨_, rfl, rfl, rfl, rfl⟩
    · exact .inr ⟨_, rfl, rfl, rfl, rfl⟩

theorem cache_cases (c : Ctx) (t : TD) (id : Nat) (nbrs : List Nat) :
    cache c t id nbrs = .error .thrown ∨
      ∃ t', cache c t id nbrs = .ok t' ∧ t'.q = t.q ∧ t'.vis = t.vis ∧ t'.exact = t.exact := by
  unfold cache
  by_cases h1 : id ≥ c.bits
  · rw [if_pos h1]; exact .inl rfl
  · rw [if_neg h1]
    by_cases h2 : nbrs.length > c.degree
    · rw [if_pos h2]; exact .inl rfl
    · rw [if_neg h2]
      split
      · exact .inr ⟨_, rfl, rfl, rfl, rfl⟩
      · split
        · exact .inl rfl
        · exact .inr ⟨_, rfl, rfl, rfl, rfl⟩

theorem absorb_cases {c : Ctx} {list : Nat} {t : TD} {off popped : List (Nat × Int)} (hq : QInv list t.q off popped) (m : Nat)
    (r : Rec) (hm : m ∉ off.map (·.1)) : absorb c t m r = .error .thrown ∨
      ∃ t', absorb c t m r = .ok t' ∧ t'.vis = t.vis ∧ QInv list t'.q (off ++ [(m, r.dist)]) popped := by
  obtain ⟨q', res, e, h, hr⟩ := hq.insert ⟨m, r.dist, false⟩ (by
    intro x hx hid
    exact absurd (List.mem_map.mpr ⟨x, hx, hid⟩) hm)
  have hk : Nbr.key ⟨m, r.dist, false⟩ = (m, r.dist) := rfl
  rw [hk, if_neg (by intro hx; exact hm (List.mem_map.mpr ⟨_, hx, rfl⟩))] at h
  unfold absorb
  rw [e]
  simp only
  have key : ∀ t1 : TD, t1.q = q' → t1.vis = t.vis →
      (if res.inserted = true then cache c t1 m r.nbrs else .ok t1) = .error .thrown ∨
      ∃ t', (if res.inserted = true then cache c t1 m r.nbrs else .ok t1) = .ok t' ∧ t'.vis = t.vis ∧
        QInv list t'.q (off ++ [(m, r.dist)]) popped := by
    intro t1 h1 h2
    by_cases hi : res.inserted = true
    · rw [if_pos hi]
      rcases cache_cases c t1 m r.nbrs with q | ⟨t', q1, q2, q3, _⟩
      · exact .inl q
      · exact .inr ⟨t', q1, q3.trans h2, by rw [q2, h1]; exact h⟩
    · rw [if_neg hi]
      exact .inr ⟨t1, rfl, h2, by rw [h1]; exact h⟩
  by_cases hev : res.evicted = true
  · rw [if_pos hev]
    rcases release_cases c { t with q := q' } res.evictedId with q | ⟨t1, q1, q2, q3, _⟩
    · rw [q]; exact .inl rfl
    · rw [q1]; exact key t1 q2 q3
  · rw [if_neg hev]
    exact key _ rfl rfl

/-- Invariant of the greedy search; `wait` are the ids found but not absorbed yet. -/
structure GInv (c : Ctx) (list : Nat) (t : TD) (off popped : List (Nat × Int)) (wait : List Nat) : Prop where
  q : QInv list t.q off popped
  ok : OffOk c t off
  wvis : ∀ m ∈ wait, m ∈ t.vis
  wnd : wait.Nodup
  disj : ∀ m ∈ wait, m ∉ off.map (·.1)
  wlive : ∀ m ∈ wait, c.dead m = false

theorem GInv.perm {c : Ctx} {list : Nat} {t : TD} {off popped : List (Nat × Int)} {w w' : List Nat}
    (h : GInv c list t off popped w) (hp : w.Perm w') : GInv c list t off popped w' :=
  ⟨h.q, h.ok, fun m hm => h.wvis m (hp.mem_iff.mpr hm), hp.nodup_iff.mp h.wnd, fun m hm => h.disj m (hp.mem_iff.mpr hm),
    fun m hm => h.wlive m (hp.mem_iff.mpr hm)⟩

theorem GInv.absorb {c : Ctx} {list : Nat} {t : TD} {off popped : List (Nat × Int)} {m : Nat} {w : List Nat}
    (h : GInv c list t off popped (m :: w)) (r : Rec) : absorb c t m r = .error .thrown ∨
      ∃ t', DiskBeam.absorb c t m r = .ok t' ∧ t'.vis = t.vis ∧ GInv c list t' (off ++ [(m, r.dist)]) popped w := by
  have hm := h.disj m List.mem_cons_self
  rcases absorb_cases h.q m r hm with q | ⟨t', e, hv, hq⟩
  · exact .inl q
  · refine .inr ⟨t', e, hv, hq, ⟨?_, ?_, ?_, ?_⟩, ?_, (List.nodup_cons.mp h.wnd).2, ?_, ?_⟩
    · rw [List.map_append, List.nodup_append]
      refine ⟨h.ok.nd, by simp, ?_⟩
      intro a ha b hb
      simp at hb
      subst hb
      rintro rfl
      exact hm ha
    · intro x hx
      rw [hv]
      rcases List.mem_append.mp hx with q | q
      · exact h.ok.vis x q
      · rw [List.mem_singleton.mp q]; exact h.wvis m List.mem_cons_self
    · rw [hv]; exact h.ok.lt
    · intro x hx
      rcases List.mem_append.mp hx with q | q
      · exact h.ok.live x q
      · rw [List.mem_singleton.mp q]; exact .inl (h.wlive m List.mem_cons_self)
    · intro x hx; rw [hv]; exact h.wvis x (List.mem_cons_of_mem _ hx)
    · intro x hx
      rw [List.map_append, List.mem_append, not_or]
      refine ⟨h.disj x (List.mem_cons_of_mem _ hx), ?_⟩
      simp only [List.map_cons, List.map_nil, List.mem_singleton]
      rintro rfl
      exact (List.nodup_cons.mp h.wnd).1 hx
    · exact fun x hx => h.wlive x (List.mem_cons_of_mem _ hx)

/-- `consider` marks every listed id below `n` and queues the new live ones, each once. -/
theorem consider_cases (c : Ctx) : ∀ (ms vis pend : List Nat), consider c ms vis pend = .error .thrown ∨
    ∃ vis' new, consider c ms vis pend = .ok (vis', pend ++ new) ∧ (∀ m ∈ vis, m ∈ vis') ∧
      (∀ m ∈ vis', m ∈ vis ∨ m ∈ ms ∧ m < c.n) ∧ new.Nodup ∧ (∀ m ∈ new, m ∈ vis' ∧ m ∉ vis ∧ c.dead m = false) ∧
      (∀ m ∈ ms, m < c.n → m ∈ vis') ∧ (∀ m ∈ vis', c.dead m = false → m ∈ vis ∨ m ∈ new)
  | [], vis, pend => .inr ⟨vis, [], by simp [consider], fun _ h => h, fun _ h => .inl h, List.nodup_nil, by simp, by simp,
      fun _ h _ => .inl h⟩
  | m :: ms, vis, pend => by
    rw [consider]
    by_cases h1 : m ≥ c.n
    · rw [if_pos h1]
      rcases consider_cases c ms vis pend with q | ⟨v, new, e, a1, a2, a3, a4, a5, a6⟩
      · exact .inl q
      · refine .inr ⟨v, new, e, a1, fun x hx => (a2 x hx).imp id (fun q => ⟨List.mem_cons_of_mem _ q.1, q.2⟩), a3, a4, ?_, a6⟩
        intro x hx hn
        rcases List.mem_cons.mp hx with rfl | hx
        · omega
        · exact a5 x hx hn
    · rw [if_neg h1]
      by_cases h2 : m ≥ c.bits
      · rw [if_pos h2]; exact .inl rfl
      · rw [if_neg h2]
        by_cases h3 : m ∈ vis
        · rw [if_pos h3]
          rcases consider_cases c ms vis pend with q | ⟨v, new, e, a1, a2, a3, a4, a5, a6⟩
          · exact .inl q
          · refine .inr ⟨v, new, e, a1, fun x hx => (a2 x hx).imp id (fun q => ⟨List.mem_cons_of_mem _ q.1, q.2⟩), a3, a4, ?_, a6⟩
            intro x hx hn
            rcases List.mem_cons.mp hx with rfl | hx
            · exact a1 _ h3
            · exact a5 x hx hn
        · rw [if_neg h3]
          by_cases h4 : c.dead m = true
          · rw [if_pos h4]
            rcases consider_cases c ms (m :: vis) pend with q | ⟨v, new, e, a1, a2, a3, a4, a5, a6⟩
            · exact .inl q
            · refine .inr ⟨v, new, e, fun x hx => a1 x (List.mem_cons_of_mem _ hx), ?_, a3, ?_, ?_, ?_⟩
              · intro x hx
                rcases a2 x hx with q | q
                · rcases List.mem_cons.mp q with rfl | q
                  · exact .inr ⟨List.mem_cons_self, by omega⟩
                  · exact .inl q
                · exact .inr ⟨List.mem_cons_of_mem _ q.1, q.2⟩
              · intro x hx
                obtain ⟨b1, b2, b3⟩ := a4 x hx
                exact ⟨b1, fun q => b2 (List.mem_cons_of_mem _ q), b3⟩
              · intro x hx hn
                rcases List.mem_cons.mp hx with rfl | hx
                · exact a1 _ List.mem_cons_self
                · exact a5 x hx hn
              · intro x hx hd
                rcases a6 x hx hd with q | q
                · rcases List.mem_cons.mp q with rfl | q
                  · rw [h4] at hd; cases hd
                  · exact .inl q
                · exact .inr q
          · rw [if_neg h4]
            rw [Bool.not_eq_true] at h4
            rcases consider_cases c ms (m :: vis) (pend ++ [m]) with q | ⟨v, new, e, a1, a2, a3, a4, a5, a6⟩
            · exact .inl q
            · refine .inr ⟨v, m :: new, by rw [e, List.append_assoc]; rfl, fun x hx => a1 x (List.mem_cons_of_mem _ hx), ?_, ?_, ?_, ?_, ?_⟩
              · intro x hx
                rcases a2 x hx with q | q
                · rcases List.mem_cons.mp q with rfl | q
                  · exact .inr ⟨List.mem_cons_self, by omega⟩
                  · exact .inl q
                · exact .inr ⟨List.mem_cons_of_mem _ q.1, q.2⟩
              · rw [List.nodup_cons]
                exact ⟨fun q => (a4 m q).2.1 List.mem_cons_self, a3⟩
              · intro x hx
                rcases List.mem_cons.mp hx with rfl | hx
                · exact ⟨a1 _ List.mem_cons_self, h3, h4⟩
                · obtain ⟨b1, b2, b3⟩ := a4 x hx
                  exact ⟨b1, fun q => b2 (List.mem_cons_of_mem _ q), b3⟩
              · intro x hx hn
                rcases List.mem_cons.mp hx with rfl | hx
                · exact a1 _ List.mem_cons_self
                · exact a5 x hx hn
              · intro x hx hd
                rcases a6 x hx hd with q | q
                · rcases List.mem_cons.mp q with rfl | q
                  · exact .inr List.mem_cons_self
                  · exact .inl q
                · exact .inr (List.mem_cons_of_mem _ q)

theorem GInv.expand {c : Ctx} {list : Nat} {t : TD} {off popped : List (Nat × Int)} {pend fly : List Nat}
    (h : GInv c list t off popped (pend ++ fly)) (hu : t.q.hasUnexpanded = true) : expand c t pend = .error .thrown ∨
      ∃ t' new x, DiskBeam.expand c t pend = .ok (t', pend ++ new) ∧ GInv c list t' off (popped ++ [x]) ((pend ++ new) ++ fly) := by
  obtain ⟨q', x, e, hq, _⟩ := h.q.closest hu
  unfold DiskBeam.expand
  rw [e]
  simp only
  unfold cached
  by_cases h1 : x.id ≥ c.bits
  · rw [if_pos h1]; exact .inl rfl
  · rw [if_neg h1]
    simp only
    rcases consider_cases c (List.take (t.offs x.id).2 (t.buf (t.offs x.id).1)) t.vis pend with q | ⟨v, new, e', a1, a2, a3, a4, a5, a6⟩
    · rw [q]; exact .inl rfl
    · rw [e']
      refine .inr ⟨_, new, x.key, rfl, ⟨hq, ⟨h.ok.nd, fun y hy => a1 _ (h.ok.vis y hy), ?_, h.ok.live⟩, ?_, ?_, ?_, ?_⟩⟩
      · intro m hm
        rcases a2 m hm with q | q
        · exact h.ok.lt m q
        · exact q.2
      · intro m hm
        rw [List.append_assoc] at hm
        rcases List.mem_append.mp hm with q | q
        · exact a1 _ (h.wvis m (List.mem_append_left _ q))
        · rcases List.mem_append.mp q with q | q
          · exact (a4 m q).1
          · exact a1 _ (h.wvis m (List.mem_append_right _ q))
      · have hp : ((pend ++ new) ++ fly).Perm (new ++ (pend ++ fly)) := by
          refine (List.Perm.append_right fly List.perm_append_comm).trans ?_
          rw [List.append_assoc]
        rw [hp.nodup_iff, List.nodup_append]
        refine ⟨a3, h.wnd, ?_⟩
        rintro a ha b hb rfl
        exact (a4 a ha).2.1 (h.wvis a hb)
      · intro m hm
        rw [List.append_assoc] at hm
        rcases List.mem_append.mp hm with q | q
        · exact h.disj m (List.mem_append_left _ q)
        · rcases List.mem_append.mp q with q | q
          · intro hx
            obtain ⟨y, y1, y2⟩ := List.mem_map.mp hx
            exact (a4 m q).2.1 (y2 ▸ h.ok.vis y y1)
          · exact h.disj m (List.mem_append_right _ q)
      · intro m hm
        rw [List.append_assoc] at hm
        rcases List.mem_append.mp hm with q | q
        · exact h.wlive m (List.mem_append_left _ q)
        · rcases List.mem_append.mp q with q | q
          · exact (a4 m q).2.2
          · exact h.wlive m (List.mem_append_right _ q)

/-- Which errors are admitted. -/
def okErr (thr fu : Prop) : Err → Prop
  | .thrown => thr
  | .ub => False
  | .stuck => True
  | .fuel => fu

/-- An admitted error, or a value with `P`. -/
def Safe {α : Type} (thr fu : Prop) (P : α → Prop) : Except Err α → Prop
  | .error e => okErr thr fu e
  | .ok a => P a

theorem Safe.mono {α : Type} {thr fu fu' : Prop} {P P' : α → Prop} {x : Except Err α} (h : Safe thr fu P x) (hf : fu → fu')
    (hp : ∀ a, P a → P' a) : Safe thr fu' P' x := by
  cases x with
  | error e => cases e with
    | thrown => exact h
    | ub => exact h
    | stuck => trivial
    | fuel => exact hf h
  | ok a => exact hp a h

theorem Safe.err {α β : Type} {thr fu fu' : Prop} {P : α → Prop} {P' : β → Prop} {e : Err} (h : Safe thr fu P (.error e)) (hf : fu → fu') :
    Safe thr fu' P' (.error e) := by
  cases e with
  | thrown => exact h
  | ub => exact h
  | stuck => trivial
  | fuel => exact hf h

/-- An invariant kept by the two steps all greedy loops consist of. `wait` are the ids found but not absorbed, `k` counts expansions. -/
structure Steps (c : Ctx) (thr : Prop) (R : Nat → Rec → Prop) (I : TD → List Nat → Nat → Prop) : Prop where
  perm : ∀ {t w w' k}, I t w k → w.Perm w' → I t w' k
  absorb : ∀ {t m w k r}, I t (m :: w) k → R m r → Safe thr False (fun t' => I t' w k) (absorb c t m r)
  expand : ∀ {t pend fly k}, I t (pend ++ fly) k → t.q.hasUnexpanded = true →
    Safe thr False (fun p => I p.1 (p.2 ++ fly) (k + 1)) (expand c t pend)
  bound : ∀ {t w k}, I t w k → t.q.hasUnexpanded = true → k < c.n

/-- Records in the environment. -/
def AnsOk (thr : Prop) (R : Nat → Rec → Prop) : Ans → Prop
  | .hit f => ∀ m, R m (f m)
  | .miss => True
  | .events l => ∀ x ∈ l, match x.2 with
    | none => thr
    | some r => R x.1 r

/-- Records in the environment of the deterministic variant. -/
def FunOk (thr : Prop) (R : Nat → Rec → Prop) (f : Nat → Option Rec) : Prop :=
  ∀ m, match f m with
    | none => thr
    | some r => R m r

section
variable {c : Ctx} {thr : Prop} {R : Nat → Rec → Prop} {I : TD → List Nat → Nat → Prop}

theorem refill_safe (S : Steps c thr R I) {slotsFree : Nat} {fly : List Nat} : ∀ (fuel : Nat) {t : TD} {pend : List Nat} {k : Nat},
    I t (pend ++ fly) k → Safe thr (¬ c.n ≤ fuel + k)
      (fun p => (∃ k', I p.1 (p.2 ++ fly) k') ∧ (slotsFree ≤ p.2.length ∨ p.1.q.hasUnexpanded = false))
      (refill c slotsFree fuel t pend) := by
  intro fuel
  induction fuel with
  | zero =>
    intro t pend k h
    unfold refill
    by_cases hc : pend.length < slotsFree ∧ t.q.hasUnexpanded = true
    · rw [if_pos hc]
      have := S.bound h hc.2
      show ¬ c.n ≤ 0 + k
      omega
    · rw [if_neg hc]
      refine ⟨⟨k, h⟩, ?_⟩
      simp only
      cases hu : t.q.hasUnexpanded
      · exact .inr rfl
      · exact .inl (Nat.le_of_not_lt fun q => hc ⟨q, hu⟩)
  | succ fuel ih =>
    intro t pend k h
    unfold refill
    by_cases hc : pend.length < slotsFree ∧ t.q.hasUnexpanded = true
    · rw [if_pos hc]
      simp only
      have := S.expand h hc.2
      cases e : DiskBeam.expand c t pend with
      | error x => rw [e] at this; exact this.err (fun q => q.elim)
      | ok r => rw [e] at this; exact (ih this).mono (fun q => by omega) (fun _ q => q)
    · rw [if_neg hc]
      refine ⟨⟨k, h⟩, ?_⟩
      simp only
      cases hu : t.q.hasUnexpanded
      · exact .inr rfl
      · exact .inl (Nat.le_of_not_lt fun q => hc ⟨q, hu⟩)

/-- State of the pipe between two calls. -/
structure PipeOk (I : TD → List Nat → Nat → Prop) (thr : Prop) (R : Nat → Rec → Prop) (slots : Nat) (p : Pipe) : Prop where
  inv : ∃ k, I p.t (p.pend ++ p.fly) k
  cnt : p.free + p.fly.length = slots
  env : ∀ a ∈ p.env, AnsOk thr R a

theorem submit_safe (S : Steps c thr R I) {slots : Nat} : ∀ (pend : List Nat) {t : TD} {fly : List Nat} {free : Nat} {env : List Ans},
    PipeOk I thr R slots ⟨t, pend, fly, free, env⟩ → Safe thr False
      (fun p => PipeOk I thr R slots p ∧ p.env.length ≤ env.length ∧
        (pend ≠ [] → free ≠ 0 → p.env.length < env.length) ∧ (pend = [] → p = ⟨t, [], fly, free, env⟩))
      (submit c pend t fly free env)
  | [], t, fly, free, env, h => by unfold submit; exact ⟨h, Nat.le_refl _, fun q => absurd rfl q, fun _ => rfl⟩
  | m :: pend, t, fly, free, env, h => by
    unfold submit
    by_cases hf : free = 0
    · rw [if_pos hf]
      exact ⟨h, Nat.le_refl _, fun _ q => absurd hf q, (by intro q; cases q)⟩
    · rw [if_neg hf]
      obtain ⟨⟨k, hi⟩, hc, he⟩ := h
      simp only at hi hc he
      match env, he with
      | .hit f :: env, he =>
        simp only
        have := S.absorb (w := pend ++ fly) hi (he _ List.mem_cons_self m)
        cases e : DiskBeam.absorb c t m (f m) with
        | error x => rw [e] at this; exact this.err (fun q => q.elim)
        | ok t' =>
          rw [e] at this
          refine (submit_safe S pend (env := env) ⟨⟨k, this⟩, hc, fun a ha => he a (List.mem_cons_of_mem _ ha)⟩).mono id ?_
          intro p hp
          have := hp.2.1
          refine ⟨hp.1, ?_, fun _ _ => ?_, (by intro q; cases q)⟩
          · rw [List.length_cons]; omega
          · rw [List.length_cons]; omega
      | .miss :: env, he =>
        simp only
        refine (submit_safe S pend (slots := slots) (env := env) ⟨⟨k, S.perm hi ?_⟩, ?_, fun a ha => he a (List.mem_cons_of_mem _ ha)⟩).mono id ?_
        · simp only
          rw [List.cons_append, ← List.append_assoc]
          exact (List.perm_append_singleton m (pend ++ fly)).symm
        · simp only [List.length_append, List.length_cons, List.length_nil]
          omega
        · intro p hp
          have := hp.2.1
          refine ⟨hp.1, ?_, fun _ _ => ?_, (by intro q; cases q)⟩
          · rw [List.length_cons]; omega
          · rw [List.length_cons]; omega
      | .events l :: env, he => trivial
      | [], he => trivial

theorem complete_safe (S : Steps c thr R I) {slots k : Nat} {pend : List Nat} : ∀ (es : List (Nat × Option Rec)) {t : TD}
    {fly : List Nat} {free : Nat}, AnsOk thr R (.events es) → I t (pend ++ fly) k → free + fly.length = slots →
    Safe thr False (fun p => I p.1 (pend ++ p.2.1) k ∧ p.2.2 + p.2.1.length = slots) (complete c es t fly free)
  | [], t, fly, free, _, h, hc => by unfold complete; exact ⟨h, hc⟩
  | (id, none) :: es, t, fly, free, he, h, hc => by unfold complete; exact he (id, none) List.mem_cons_self
  | (id, some r) :: es, t, fly, free, he, h, hc => by
    have hr : R id r := he (id, some r) List.mem_cons_self
    have he' : AnsOk thr R (.events es) := fun x hx => he x (List.mem_cons_of_mem _ hx)
    unfold complete
    by_cases hm : id ∈ fly
    · rw [if_pos hm]
      have hp : (pend ++ fly).Perm (id :: (pend ++ fly.erase id)) :=
        (List.Perm.append_left pend (List.perm_cons_erase hm)).trans List.perm_middle
      have := S.absorb (S.perm h hp) hr
      cases e : DiskBeam.absorb c t id r with
      | error x => rw [e] at this; exact this.err (fun q => q.elim)
      | ok t' =>
        rw [e] at this
        refine complete_safe S es he' this ?_
        rw [List.length_erase_of_mem hm]
        have := List.length_pos_of_mem hm
        omega
    · rw [if_neg hm]
      exact complete_safe S es he' h hc

/-- Nothing left to do. -/
def Pipe.done (p : Pipe) : Prop := p.fly = [] ∧ p.pend = [] ∧ p.t.q.hasUnexpanded = false

theorem advance_safe (S : Steps c thr R I) {inner slots : Nat} (hs : slots ≠ 0) {p : Pipe} (h : PipeOk I thr R slots p) :
    Safe thr (¬ c.n ≤ inner) (fun p' => PipeOk I thr R slots p' ∧ p'.env.length ≤ p.env.length ∧
      (p.fly = [] → p'.env.length < p.env.length ∨ p'.done)) (advance c inner p) := by
  unfold advance
  obtain ⟨⟨k, hi⟩, hc, he⟩ := h
  have := refill_safe S (slotsFree := p.free) inner hi
  cases e : refill c p.free inner p.t p.pend with
  | error x => rw [e] at this; exact this.err (fun q => by omega)
  | ok r =>
    rw [e] at this
    obtain ⟨⟨k', hk⟩, hu⟩ := this
    refine (submit_safe S (slots := slots) r.2 (t := r.1) (fly := p.fly) (free := p.free) (env := p.env) ⟨⟨k', hk⟩, hc, he⟩).mono
      (fun q => q.elim) ?_
    intro p' hp
    refine ⟨hp.1, hp.2.1, ?_⟩
    intro hf
    rw [hf] at hc
    simp only [List.length_nil, Nat.add_zero] at hc
    by_cases hr : r.2 = []
    · right
      have := hp.2.2.2 hr
      rw [this]
      refine ⟨hf, rfl, ?_⟩
      rcases hu with q | q
      · rw [hr, hc] at q
        exact absurd (Nat.le_zero.mp q) hs
      · exact q
    · exact .inl (hp.2.2.1 hr (by omega))

theorem pipeLoop_safe (S : Steps c thr R I) {inner slots : Nat} (hs : slots ≠ 0) : ∀ (fuel : Nat) {p : Pipe}, PipeOk I thr R slots p →
    Safe thr (¬ (c.n ≤ inner ∧ (p.env.length < fuel ∨ p.done))) (fun t => (∃ k, I t [] k) ∧ t.q.hasUnexpanded = false)
      (pipeLoop c inner fuel p) := by
  intro fuel
  induction fuel with
  | zero =>
    intro p h
    unfold pipeLoop
    by_cases hd : p.fly = [] ∧ p.pend = [] ∧ p.t.q.hasUnexpanded = false
    · rw [if_pos hd]
      refine ⟨?_, hd.2.2⟩
      have := h.inv
      rw [hd.1, hd.2.1] at this
      exact this
    · rw [if_neg hd]
      show ¬ (c.n ≤ inner ∧ (p.env.length < 0 ∨ p.done))
      rintro ⟨_, q | q⟩
      · omega
      · exact hd q
  | succ fuel ih =>
    intro p h
    unfold pipeLoop
    by_cases hd : p.fly = [] ∧ p.pend = [] ∧ p.t.q.hasUnexpanded = false
    · rw [if_pos hd]
      refine ⟨?_, hd.2.2⟩
      have := h.inv
      rw [hd.1, hd.2.1] at this
      exact this
    · rw [if_neg hd]
      simp only
      by_cases hf : p.fly = []
      · rw [if_pos hf]
        simp only
        have := advance_safe S (inner := inner) hs h
        cases e : advance c inner p with
        | error x => rw [e] at this; exact this.err (fun q r => q r.1)
        | ok p' =>
          rw [e] at this
          refine (ih this.1).mono ?_ (fun _ q => q)
          rintro q ⟨r1, r2⟩
          refine q ⟨r1, ?_⟩
          rcases this.2.2 hf with w | w
          · rcases r2 with r2 | r2
            · exact .inl (by omega)
            · exact absurd r2 hd
          · exact .inr w
      · rw [if_neg hf]
        obtain ⟨⟨k, hi⟩, hc, he⟩ := h
        match e : p.env, he with
        | .events l :: env, he =>
          simp only
          have := complete_safe S (pend := p.pend) l (he _ List.mem_cons_self) hi hc
          cases e2 : complete c l p.t p.fly p.free with
          | error x => rw [e2] at this; exact this.err (fun q => q.elim)
          | ok r =>
            rw [e2] at this
            obtain ⟨t1, fly1, free1⟩ := r
            simp only
            have h3 := advance_safe S (inner := inner) hs
              (p := ⟨t1, p.pend, fly1, free1, env⟩) ⟨⟨k, this.1⟩, this.2, fun a ha => he a (List.mem_cons_of_mem _ ha)⟩
            cases e3 : advance c inner ⟨t1, p.pend, fly1, free1, env⟩ with
            | error x => rw [e3] at h3; exact h3.err (fun q r => q r.1)
            | ok p' =>
              rw [e3] at h3
              refine (ih h3.1).mono ?_ (fun _ q => q)
              rintro q ⟨r1, r2⟩
              refine q ⟨r1, .inl ?_⟩
              have := h3.2.1
              simp only at this
              rcases r2 with r2 | r2
              · rw [List.length_cons] at r2; omega
              · exact absurd r2 hd
        | .hit f :: env, he => trivial
        | .miss :: env, he => trivial
        | [], he => trivial

theorem absorbAll_safe (S : Steps c thr R I) {k : Nat} : ∀ (ms : List Nat) {t : TD} {env : List (Nat → Option Rec)}, I t ms k →
    (∀ f ∈ env, FunOk thr R f) →
    Safe thr False (fun p => I p.1 [] k ∧ ∀ f ∈ p.2, FunOk thr R f) (absorbAll c ms t env)
  | [], t, env, h, he => by unfold absorbAll; exact ⟨h, he⟩
  | m :: ms, t, env, h, he => by
    unfold absorbAll
    match env, he with
    | [], he => trivial
    | f :: env, he =>
      simp only
      have hf := he f List.mem_cons_self m
      split
      · rename_i h0
        rw [h0] at hf
        exact hf
      · rename_i r h0
        rw [h0] at hf
        have := S.absorb h hf
        cases e : DiskBeam.absorb c t m r with
        | error x => rw [e] at this; exact this.err (fun q => q.elim)
        | ok t' => rw [e] at this; exact absorbAll_safe S ms this (fun a ha => he a (List.mem_cons_of_mem _ ha))

theorem detLoop_safe (S : Steps c thr R I) : ∀ (fuel : Nat) {t : TD} {env : List (Nat → Option Rec)} {k : Nat}, I t [] k →
    (∀ f ∈ env, FunOk thr R f) →
    Safe thr (¬ c.n ≤ fuel + k) (fun t => (∃ k, I t [] k) ∧ t.q.hasUnexpanded = false) (detLoop c fuel t env) := by
  intro fuel
  induction fuel with
  | zero =>
    intro t env k h he
    unfold detLoop
    by_cases hc : t.q.hasUnexpanded = true
    · rw [if_pos hc]
      have := S.bound h hc
      show ¬ c.n ≤ 0 + k
      omega
    · rw [if_neg hc]
      exact ⟨⟨k, h⟩, by simpa using hc⟩
  | succ fuel ih =>
    intro t env k h he
    unfold detLoop
    by_cases hc : t.q.hasUnexpanded = true
    · rw [if_pos hc]
      simp only
      have := S.expand (pend := []) (fly := []) h hc
      cases e : DiskBeam.expand c t [] with
      | error x => rw [e] at this; exact this.err (fun q => q.elim)
      | ok r =>
        rw [e] at this
        obtain ⟨t1, todo⟩ := r
        simp only [List.append_nil] at this ⊢
        have h2 := absorbAll_safe S todo this he
        cases e2 : absorbAll c todo t1 env with
        | error x => rw [e2] at h2; exact h2.err (fun q => q.elim)
        | ok r2 => rw [e2] at h2; exact (ih h2.1 h2.2).mono (fun q => by omega) (fun _ q => q)
    · rw [if_neg hc]
      exact ⟨⟨k, h⟩, by simpa using hc⟩

end

/-- `GInv` with the number of expansions. -/
def GOk (c : Ctx) (list : Nat) (t : TD) (wait : List Nat) (k : Nat) : Prop :=
  ∃ off popped, GInv c list t off popped wait ∧ popped.length = k

theorem off_length {c : Ctx} {t : TD} {off : List (Nat × Int)} (ho : OffOk c t off) : off.length ≤ c.n := by
  have := nodup_subset_length (l2 := List.range c.n) ho.nd (by
    intro x hx
    obtain ⟨y, y1, y2⟩ := List.mem_map.mp hx
    exact List.mem_range.mpr (y2 ▸ ho.lt _ (ho.vis y y1)))
  rwa [List.length_map, List.length_range] at this

theorem popped_lt {c : Ctx} {list : Nat} {t : TD} {off popped : List (Nat × Int)} (hq : QInv list t.q off popped) (ho : OffOk c t off)
    (hu : t.q.hasUnexpanded = true) : popped.length < c.n := by
  obtain ⟨q', x, _, hq', _⟩ := hq.closest hu
  have h1 := nodup_subset_length hq'.pnd (hq'.psub)
  have := off_length ho
  rw [List.length_append, List.length_singleton] at h1
  omega

theorem gok_steps (c : Ctx) (list : Nat) : Steps c True (fun _ _ => True) (GOk c list) where
  perm := by
    rintro t w w' k ⟨off, popped, h, hk⟩ hp
    exact ⟨off, popped, h.perm hp, hk⟩
  absorb := by
    rintro t m w k r ⟨off, popped, h, hk⟩ -
    rcases h.absorb r with q | ⟨t', e, _, h'⟩
    · rw [q]; trivial
    · rw [e]; exact ⟨_, _, h', hk⟩
  expand := by
    rintro t pend fly k ⟨off, popped, h, hk⟩ hu
    rcases h.expand hu with q | ⟨t', new, x, e, h'⟩
    · rw [q]; trivial
    · rw [e]; exact ⟨_, _, h', by rw [List.length_append, hk]; rfl⟩
  bound := by
    rintro t w k ⟨off, popped, h, hk⟩ hu
    exact hk ▸ popped_lt h.q h.ok hu

theorem seed_safe {c : Ctx} {list : Nat} (hm : c.medoid < c.n) (t : TD) (r : Option Rec) :
    Safe True False (fun t => GOk c list t [] 0) (seed c t list r) := by
  unfold seed
  split
  · trivial
  · cases r with
    | none => trivial
    | some r =>
      simp only
      rcases absorb_cases (t := { t.reset c list with vis := c.medoid :: (t.reset c list).vis }) (QInv.reset t.q list) c.medoid r (by simp) with
        q | ⟨t', e, hv, hq⟩
      · rw [q]; trivial
      · rw [e]
        rw [List.nil_append] at hq
        refine ⟨_, [], ⟨hq, ⟨by simp, ?_, ?_, ?_⟩, by simp, List.nodup_nil, by simp, by simp⟩, rfl⟩
        · intro x hx
          rw [List.mem_singleton.mp hx, hv]
          exact List.mem_singleton.mpr rfl
        · intro m hm'
          rw [hv] at hm'
          rw [List.mem_singleton.mp hm']; exact hm
        · intro x hx
          rw [List.mem_singleton.mp hx]; exact .inr rfl

theorem scan_safe {c : Ctx} {list : Nat} {pq : Nat → Int} {popped : List (Nat × Int)} : ∀ (ms : List Nat) {t : TD}, (∃ off, QInv list t.q off popped ∧ OffOk c t off) →
    Safe True False (fun t' => ∃ off, QInv list t'.q off popped ∧ OffOk c t' off) (scan c pq ms t)
  | [], t, h => by unfold scan; exact h
  | m :: ms, t, h => by
    unfold scan
    by_cases h1 : m ≥ c.n
    · rw [if_pos h1]; exact scan_safe ms h
    · rw [if_neg h1]
      by_cases h2 : c.dead m = true
      · rw [if_pos h2]; exact scan_safe ms h
      · rw [if_neg h2]
        by_cases h3 : m ≥ c.bits
        · rw [if_pos h3]; trivial
        · rw [if_neg h3]
          by_cases h4 : m ∈ t.vis
          · rw [if_pos h4]; exact scan_safe ms h
          · rw [if_neg h4]
            obtain ⟨off, hq, ho⟩ := h
            have hno : m ∉ off.map (·.1) := by
              intro hx
              obtain ⟨y, y1, y2⟩ := List.mem_map.mp hx
              exact h4 (y2 ▸ ho.vis y y1)
            obtain ⟨q', res, e, hq', _⟩ := hq.insert ⟨m, pq m, false⟩ (by
              intro x hx hid
              exact absurd (List.mem_map.mpr ⟨x, hx, hid⟩) hno)
            have hk : Nbr.key ⟨m, pq m, false⟩ = (m, pq m) := rfl
            rw [hk, if_neg (by intro hx; exact hno (List.mem_map.mpr ⟨_, hx, rfl⟩))] at hq'
            rw [e]
            refine scan_safe ms ⟨_, hq', ?_, ?_, ?_, ?_⟩
            · rw [List.map_append, List.nodup_append]
              refine ⟨ho.nd, by simp, ?_⟩
              intro a ha b hb
              simp at hb
              subst hb
              rintro rfl
              exact hno ha
            · intro x hx
              rcases List.mem_append.mp hx with q | q
              · exact List.mem_cons_of_mem _ (ho.vis x q)
              · rw [List.mem_singleton.mp q]; exact List.mem_cons_self
            · intro x hx
              rcases List.mem_cons.mp hx with rfl | hx
              · omega
              · exact ho.lt x hx
            · intro x hx
              rcases List.mem_append.mp hx with q | q
              · exact ho.live x q
              · rw [List.mem_singleton.mp q]; exact .inl (by simpa using h2)


/-- An invariant kept by the two steps of the PQ loops. `wait` are the ids popped but not processed, `k` counts pops. -/
structure StepsPQ (c : Ctx) (pq : Nat → Int) (thr : Prop) (R : Nat → Rec → Prop) (I : TD → List Nat → Nat → Prop) : Prop where
  perm : ∀ {t w w' k}, I t w k → w.Perm w' → I t w' k
  pop : ∀ {t w k}, I t w k → t.q.hasUnexpanded = true → ∃ q' x, t.q.closest = some (q', x) ∧ I { t with q := q' } (x.id :: w) (k + 1)
  process : ∀ {t id w k r}, I t (id :: w) k → R id r → Safe thr False (fun t' => I t' w k) (process c pq t id r)
  bound : ∀ {t w k}, I t w k → t.q.hasUnexpanded = true → k < c.n

/-- Records in the environment of the deterministic PQ search. -/
def BAnsOk (thr : Prop) (R : Nat → Rec → Prop) : BAns → Prop
  | .inCache f => ∀ m, R m (f m)
  | .inPages f => ∀ m, R m (f m)
  | .device f => FunOk thr R f

section
variable {c : Ctx} {pq : Nat → Int} {thr : Prop} {R : Nat → Rec → Prop} {I : TD → List Nat → Nat → Prop}

theorem fillPipe_safe (S : StepsPQ c pq thr R I) {slots : Nat} : ∀ (fuel : Nat) {t : TD} {fly : List Nat} {free k : Nat} {env : List Ans},
    I t fly k → free + fly.length = slots → (∀ a ∈ env, AnsOk thr R a) →
    Safe thr (¬ c.n ≤ fuel + k) (fun p => (∃ k, I p.1 p.2.1 k) ∧ p.2.2.1 + p.2.1.length = slots ∧ p.2.2.2.length ≤ env.length ∧
      (∀ a ∈ p.2.2.2, AnsOk thr R a) ∧ (p.2.2.1 = 0 ∨ p.1.q.hasUnexpanded = false)) (fillPipe c pq fuel t fly free env) := by
  intro fuel
  induction fuel with
  | zero =>
    intro t fly free k env h hc he
    unfold fillPipe
    by_cases hd : free ≠ 0 ∧ t.q.hasUnexpanded = true
    · rw [if_pos hd]
      have := S.bound h hd.2
      show ¬ c.n ≤ 0 + k
      omega
    · rw [if_neg hd]
      refine ⟨⟨k, h⟩, hc, Nat.le_refl _, he, ?_⟩
      simp only
      by_cases h0 : free = 0
      · exact .inl h0
      · right
        cases hu : t.q.hasUnexpanded
        · rfl
        · exact absurd ⟨h0, hu⟩ hd
  | succ fuel ih =>
    intro t fly free k env h hc he
    unfold fillPipe
    by_cases hd : free ≠ 0 ∧ t.q.hasUnexpanded = true
    · rw [if_pos hd]
      simp only
      obtain ⟨q', x, e, h'⟩ := S.pop h hd.2
      rw [e]
      simp only
      match env, he with
      | .hit f :: env, he =>
        simp only
        have := S.process h' (he _ List.mem_cons_self x.id)
        cases e2 : DiskBeam.process c pq { t with q := q' } x.id (f x.id) with
        | error y => rw [e2] at this; exact this.err (fun q => q.elim)
        | ok t' =>
          rw [e2] at this
          refine (ih this hc (fun a ha => he a (List.mem_cons_of_mem _ ha))).mono (fun q => by omega) ?_
          intro p hp
          refine ⟨hp.1, hp.2.1, ?_, hp.2.2.2⟩
          have := hp.2.2.1
          rw [List.length_cons]
          omega
      | .miss :: env, he =>
        simp only
        refine (ih (S.perm h' (List.perm_append_singleton x.id fly).symm) ?_
          (fun a ha => he a (List.mem_cons_of_mem _ ha))).mono (fun q => by omega) ?_
        · rw [List.length_append, List.length_singleton]
          have := hd.1
          omega
        · intro p hp
          refine ⟨hp.1, hp.2.1, ?_, hp.2.2.2⟩
          have := hp.2.2.1
          rw [List.length_cons]
          omega
      | .events l :: env, he => trivial
      | [], he => trivial
    · rw [if_neg hd]
      refine ⟨⟨k, h⟩, hc, Nat.le_refl _, he, ?_⟩
      simp only
      by_cases h0 : free = 0
      · exact .inl h0
      · right
        cases hu : t.q.hasUnexpanded
        · rfl
        · exact absurd ⟨h0, hu⟩ hd

theorem completePQ_safe (S : StepsPQ c pq thr R I) {slots k : Nat} : ∀ (es : List (Nat × Option Rec)) {t : TD} {fly : List Nat}
    {free : Nat}, AnsOk thr R (.events es) → I t fly k → free + fly.length = slots →
    Safe thr False (fun p => I p.1 p.2.1 k ∧ p.2.2 + p.2.1.length = slots) (completePQ c pq es t fly free)
  | [], t, fly, free, _, h, hc => by unfold completePQ; exact ⟨h, hc⟩
  | (id, none) :: es, t, fly, free, he, h, hc => by unfold completePQ; exact he (id, none) List.mem_cons_self
  | (id, some r) :: es, t, fly, free, he, h, hc => by
    have hr : R id r := he (id, some r) List.mem_cons_self
    have he' : AnsOk thr R (.events es) := fun x hx => he x (List.mem_cons_of_mem _ hx)
    unfold completePQ
    by_cases hm : id ∈ fly
    · rw [if_pos hm]
      have := S.process (S.perm h (List.perm_cons_erase hm)) hr
      cases e : DiskBeam.process c pq t id r with
      | error x => rw [e] at this; exact this.err (fun q => q.elim)
      | ok t' =>
        rw [e] at this
        refine completePQ_safe S es he' this ?_
        rw [List.length_erase_of_mem hm]
        have := List.length_pos_of_mem hm
        omega
    · rw [if_neg hm]
      exact completePQ_safe S es he' h hc

theorem pqLoop_safe (S : StepsPQ c pq thr R I) {inner slots : Nat} (hs : slots ≠ 0) : ∀ (fuel : Nat) {t : TD} {fly : List Nat}
    {free : Nat} {env : List Ans}, (∃ k, I t fly k) → free + fly.length = slots → (∀ a ∈ env, AnsOk thr R a) →
    (free = 0 ∨ t.q.hasUnexpanded = false) →
    Safe thr (¬ (c.n ≤ inner ∧ env.length < fuel)) (fun p => (∃ k, I p.1 [] k) ∧ p.1.q.hasUnexpanded = false)
      (pqLoop c pq inner fuel t fly free env) := by
  intro fuel
  induction fuel with
  | zero =>
    intro t fly free env h hc he hu
    unfold pqLoop
    by_cases hf : fly = []
    · rw [if_pos hf]
      subst hf
      refine ⟨h, ?_⟩
      rcases hu with q | q
      · rw [q] at hc; exact absurd hc.symm hs
      · exact q
    · rw [if_neg hf]
      show ¬ (c.n ≤ inner ∧ env.length < 0)
      omega
  | succ fuel ih =>
    intro t fly free env h hc he hu
    unfold pqLoop
    by_cases hf : fly = []
    · rw [if_pos hf]
      subst hf
      refine ⟨h, ?_⟩
      rcases hu with q | q
      · rw [q] at hc; exact absurd hc.symm hs
      · exact q
    · rw [if_neg hf]
      simp only
      obtain ⟨k, hi⟩ := h
      match env, he with
      | .events l :: env, he =>
        simp only
        have := completePQ_safe S l (he _ List.mem_cons_self) hi hc
        cases e : completePQ c pq l t fly free with
        | error y => rw [e] at this; exact this.err (fun q => q.elim)
        | ok p =>
          rw [e] at this
          obtain ⟨t1, fly1, free1⟩ := p
          simp only
          have h2 := fillPipe_safe S inner this.1 this.2 (fun a ha => he a (List.mem_cons_of_mem _ ha))
          cases e2 : fillPipe c pq inner t1 fly1 free1 env with
          | error y => rw [e2] at h2; exact h2.err (fun q w => q (by omega))
          | ok p2 =>
            rw [e2] at h2
            obtain ⟨a1, a2, a3, a4, a5⟩ := h2
            refine (ih a1 a2 a4 a5).mono ?_ (fun _ q => q)
            rintro q ⟨w1, w2⟩
            refine q ⟨w1, ?_⟩
            rw [List.length_cons] at w2
            omega
      | .hit f :: env, he => trivial
      | .miss :: env, he => trivial
      | [], he => trivial

theorem popBatch_safe (S : StepsPQ c pq thr R I) {beam : Nat} : ∀ (fuel : Nat) {t : TD} {reqs slot k : Nat}
    {batch : List (Nat × Option Rec)} {env : List BAns}, I t (batch.map (·.1)) k → AnsOk thr R (.events batch) →
    (∀ a ∈ env, BAnsOk thr R a) →
    Safe thr (¬ c.n ≤ fuel + k) (fun p => (∃ k', I p.1 (p.2.1.map (·.1)) k' ∧ k ≤ k' ∧
        (t.q.hasUnexpanded = true → reqs < beam → slot < max 1 c.slots → k < k')) ∧
      AnsOk thr R (.events p.2.1) ∧ ∀ a ∈ p.2.2, BAnsOk thr R a) (popBatch c beam fuel t reqs slot batch env) := by
  intro fuel
  induction fuel with
  | zero =>
    intro t reqs slot k batch env h hb he
    unfold popBatch
    by_cases hd : t.q.hasUnexpanded = true ∧ reqs < beam ∧ slot < max 1 c.slots
    · rw [if_pos hd]
      have := S.bound h hd.1
      show ¬ c.n ≤ 0 + k
      omega
    · rw [if_neg hd]
      exact ⟨⟨k, h, Nat.le_refl _, fun a b d => absurd ⟨a, b, d⟩ hd⟩, hb, he⟩
  | succ fuel ih =>
    intro t reqs slot k batch env h hb he
    unfold popBatch
    by_cases hd : t.q.hasUnexpanded = true ∧ reqs < beam ∧ slot < max 1 c.slots
    · rw [if_pos hd]
      simp only
      obtain ⟨q', x, e, h'⟩ := S.pop h hd.1
      rw [e]
      simp only
      have hw : ∀ o : Option Rec, I { t with q := q' } ((batch ++ [(x.id, o)]).map (·.1)) (k + 1) := by
        intro o
        rw [List.map_append]
        exact S.perm h' (List.perm_append_singleton x.id _).symm
      have hbo : ∀ o : Option Rec, (match o with | none => thr | some r => R x.id r) →
          AnsOk thr R (.events (batch ++ [(x.id, o)])) := by
        intro o ho y hy
        rcases List.mem_append.mp hy with q | q
        · exact hb y q
        · rw [List.mem_singleton.mp q]; exact ho
      have fin : ∀ (o : Option Rec) (rq sl : Nat) (env' : List BAns), (match o with | none => thr | some r => R x.id r) →
          (∀ a ∈ env', BAnsOk thr R a) →
          Safe thr (¬ c.n ≤ fuel + 1 + k) (fun p => (∃ k', I p.1 (p.2.1.map (·.1)) k' ∧ k ≤ k' ∧
            (t.q.hasUnexpanded = true → reqs < beam → slot < max 1 c.slots → k < k')) ∧
            AnsOk thr R (.events p.2.1) ∧ ∀ a ∈ p.2.2, BAnsOk thr R a)
            (popBatch c beam fuel { t with q := q' } rq sl (batch ++ [(x.id, o)]) env') := by
        intro o rq sl env' ho he'
        refine (ih (hw o) (hbo o ho) he').mono (fun q => by omega) ?_
        rintro p ⟨⟨k', a1, a2, _⟩, a3, a4⟩
        exact ⟨⟨k', a1, by omega, fun _ _ _ => by omega⟩, a3, a4⟩
      match env, he with
      | .inCache f :: env, he => exact fin _ _ _ _ (he _ List.mem_cons_self x.id) (fun a ha => he a (List.mem_cons_of_mem _ ha))
      | .inPages f :: env, he => exact fin _ _ _ _ (he _ List.mem_cons_self x.id) (fun a ha => he a (List.mem_cons_of_mem _ ha))
      | .device f :: env, he => exact fin _ _ _ _ (he _ List.mem_cons_self x.id) (fun a ha => he a (List.mem_cons_of_mem _ ha))
      | [], he => trivial
    · rw [if_neg hd]
      exact ⟨⟨k, h, Nat.le_refl _, fun a b d => absurd ⟨a, b, d⟩ hd⟩, hb, he⟩

theorem processAll_safe (S : StepsPQ c pq thr R I) {k : Nat} : ∀ (es : List (Nat × Option Rec)) {t : TD}, I t (es.map (·.1)) k →
    AnsOk thr R (.events es) → Safe thr False (fun t => I t [] k) (processAll c pq es t)
  | [], t, h, _ => by unfold processAll; exact h
  | (id, none) :: es, t, h, hb => by unfold processAll; exact hb (id, none) List.mem_cons_self
  | (id, some r) :: es, t, h, hb => by
    unfold processAll
    have := S.process h (hb (id, some r) List.mem_cons_self)
    cases e2 : DiskBeam.process c pq t id r with
    | error y => rw [e2] at this; exact this.err (fun q => q.elim)
    | ok t' => rw [e2] at this; exact processAll_safe S es this (fun x hx => hb x (List.mem_cons_of_mem _ hx))

theorem pqDetLoop_safe (S : StepsPQ c pq thr R I) {beam inner : Nat} (hbm : beam ≠ 0) : ∀ (fuel : Nat) {t : TD} {k : Nat} {env : List BAns},
    I t [] k → (∀ a ∈ env, BAnsOk thr R a) →
    Safe thr (¬ (c.n ≤ inner ∧ c.n ≤ fuel + k)) (fun p => (∃ k, I p.1 [] k) ∧ p.1.q.hasUnexpanded = false)
      (pqDetLoop c pq beam inner fuel t env) := by
  intro fuel
  induction fuel with
  | zero =>
    intro t k env h he
    unfold pqDetLoop
    by_cases hc : t.q.hasUnexpanded = true
    · rw [if_pos hc]
      have := S.bound h hc
      show ¬ (c.n ≤ inner ∧ c.n ≤ 0 + k)
      omega
    · rw [if_neg hc]
      exact ⟨⟨k, h⟩, by simpa using hc⟩
  | succ fuel ih =>
    intro t k env h he
    unfold pqDetLoop
    by_cases hc : t.q.hasUnexpanded = true
    · rw [if_pos hc]
      simp only
      have := popBatch_safe S (beam := beam) inner (reqs := 0) (slot := 0) (batch := []) (env := env) h (by intro x hx; cases hx) he
      cases e : popBatch c beam inner t 0 0 [] env with
      | error y => rw [e] at this; exact this.err (fun q w => q (by omega))
      | ok p =>
        rw [e] at this
        obtain ⟨t1, batch, env1⟩ := p
        obtain ⟨⟨k', a1, _, a2⟩, a3, a4⟩ := this
        simp only at a1 a3 a4 ⊢
        have hk := a2 hc (by omega) (by have := Nat.le_max_left 1 c.slots; omega)
        have h2 := processAll_safe S batch a1 a3
        cases e2 : processAll c pq batch t1 with
        | error y => rw [e2] at h2; exact h2.err (fun q => q.elim)
        | ok p2 => rw [e2] at h2; exact (ih h2 a4).mono (fun q w => q (by omega)) (fun _ q => q)
    · rw [if_neg hc]
      exact ⟨⟨k, h⟩, by simpa using hc⟩

end

/-- Invariant of the PQ search. -/
def POk (c : Ctx) (list : Nat) (t : TD) (_ : List Nat) (k : Nat) : Prop :=
  ∃ off popped, QInv list t.q off popped ∧ OffOk c t off ∧ popped.length = k

theorem pok_steps (c : Ctx) (pq : Nat → Int) (list : Nat) : StepsPQ c pq True (fun _ _ => True) (POk c list) where
  perm := fun h _ => h
  pop := by
    rintro t w k ⟨off, popped, hq, ho, hk⟩ hu
    obtain ⟨q', x, e, hq', _⟩ := hq.closest hu
    exact ⟨q', x, e, off, _, hq', ⟨ho.nd, ho.vis, ho.lt, ho.live⟩, by rw [List.length_append, hk]; rfl⟩
  process := by
    rintro t id w k r ⟨off, popped, hq, ho, hk⟩ -
    unfold process
    split
    · trivial
    · have := scan_safe (pq := pq) (popped := popped) r.nbrs
        (t := { t with exact := fun i => if i = id then some r.dist else t.exact i }) ⟨off, hq, ho.nd, ho.vis, ho.lt, ho.live⟩
      refine this.mono (fun q => q) ?_
      rintro t' ⟨off', a, b⟩
      exact ⟨off', popped, a, b, hk⟩
  bound := by
    rintro t w k ⟨off, popped, hq, ho, hk⟩ hu
    exact hk ▸ popped_lt hq ho hu

theorem seedPQ_safe {c : Ctx} {list : Nat} {pq : Nat → Int} (hm : c.medoid < c.n) (t : TD) :
    Safe True False (fun t => POk c list t [] 0) (seedPQ c pq t list) := by
  unfold seedPQ
  split
  · trivial
  · obtain ⟨q', res, e, hq, _⟩ := (QInv.reset t.q list).insert ⟨c.medoid, pq c.medoid, false⟩ (by simp)
    have e' : (t.reset c list).q.insert ⟨c.medoid, pq c.medoid, false⟩ = some (q', res) := e
    rw [e']
    simp only [List.not_mem_nil, if_false, List.nil_append] at hq
    refine ⟨_, [], hq, ⟨by simp, ?_, ?_, ?_⟩, rfl⟩
    · intro x hx
      rw [List.mem_singleton.mp hx]; exact List.mem_singleton.mpr rfl
    · intro m hm'
      rw [List.mem_singleton.mp hm']; exact hm
    · intro x hx
      rw [List.mem_singleton.mp hx]; exact .inr rfl

theorem rerank_ids (t : TD) : ∀ (es : List Nbr) (reads : List (Option Int)),
    Safe True False (fun out => out.map (·.id) = es.map (·.id)) (rerank t es reads)
  | [], reads => by unfold rerank; exact rfl
  | e :: es, reads => by
    unfold rerank
    split
    · have := rerank_ids t es reads
      cases h : rerank t es reads with
      | error x => rw [h] at this; exact this
      | ok out => rw [h] at this; exact congrArg (e.id :: ·) this
    · split
      · trivial
      · trivial
      · rename_i d reads'
        have := rerank_ids t es reads'
        cases h : rerank t es reads' with
        | error x => rw [h] at this; exact this
        | ok out => rw [h] at this; exact congrArg (e.id :: ·) this

/-- Sorting and cutting candidates whose ids are live frontier ids. -/
theorem sorted_good {c : Ctx} {list topK : Nat} {t : TD} (h : ∃ off popped, QInv list t.q off popped ∧ OffOk c t off) (k : Nat) (out : List Nbr)
    (hout : out.map (·.id) = ((t.q.entries.filter fun e => !c.dead e.id).take k).map (·.id)) :
    Good c.n c.dead topK (((sortPool out).take topK).map fun e => (e.id, e.dist)) := by
  obtain ⟨off, popped, hq, ho⟩ := h
  have hsl : ((t.q.entries.filter fun e => !c.dead e.id).take k).Sublist t.q.entries :=
    (List.take_sublist _ _).trans List.filter_sublist
  have hid : ∀ e ∈ sortPool out, ∃ e' ∈ t.q.entries, e'.id = e.id ∧ c.dead e.id = false := by
    intro e he
    have h1 : e.id ∈ out.map (·.id) := List.mem_map_of_mem ((sortPool_perm out).mem_iff.mp he)
    rw [hout] at h1
    obtain ⟨e', h2, h3⟩ := List.mem_map.mp h1
    refine ⟨e', hsl.subset h2, h3, ?_⟩
    have := (List.mem_filter.mp (List.mem_of_mem_take h2)).2
    rw [h3] at this
    simpa using this
  refine ⟨?_, ?_, ?_, ?_, ?_⟩
  · rw [List.length_map, List.length_take]; omega
  · have h1 : (t.q.entries.map (·.id)).Nodup := by
      rw [← entries_ids]; exact best_ids_nodup hq.best ho.nd
    have h2 : ((sortPool out).map (·.id)).Nodup := by
      rw [((sortPool_perm out).map _).nodup_iff, hout]
      exact h1.sublist (hsl.map _)
    rw [List.map_map]
    exact h2.sublist ((List.take_sublist _ _).map _)
  · rw [List.pairwise_map]
    refine ((sortPool_sorted out).sublist (List.take_sublist _ _)).imp ?_
    intro a b h
    unfold leL Nbr.key at h
    simp only at h ⊢
    omega
  · intro p hp
    obtain ⟨e, he, rfl⟩ := List.mem_map.mp hp
    obtain ⟨e', h1, h2, _⟩ := hid e (List.mem_of_mem_take he)
    have := ho.lt _ (ho.vis _ (best_sub hq.best _ (List.mem_map_of_mem h1)))
    simp only
    rw [← h2]
    exact this
  · intro p hp
    obtain ⟨e, he, rfl⟩ := List.mem_map.mp hp
    exact (hid e (List.mem_of_mem_take he)).choose_spec.2.2

theorem extractPQ_safe {c : Ctx} {list topK : Nat} {t : TD} (h : ∃ off popped, QInv list t.q off popped ∧ OffOk c t off) (want : Option Nat) (reads : List (Option Int)) :
    Safe True False (Good c.n c.dead topK) (extractPQ c topK want t reads) := by
  unfold extractPQ
  simp only
  cases want with
  | none =>
    refine sorted_good h topK _ ?_
    rw [List.map_map]; rfl
  | some w =>
    simp only
    have := rerank_ids t ((t.q.entries.filter fun e => !c.dead e.id).take (if w > 0 then w else topK * 3)) reads
    cases e : rerank t ((t.q.entries.filter fun e => !c.dead e.id).take (if w > 0 then w else topK * 3)) reads with
    | error x => rw [e] at this; exact this
    | ok out => rw [e] at this; exact sorted_good h _ _ this


end Alaya.DiskBeam
