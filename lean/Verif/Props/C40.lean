import Verif.Lemmas.DiskPageIO

/-!
C40 — the version check of `search_fill_page` / `read_page_snapshot`.  A transition system: any number of searches that have missed the
cache and are reading a page from the device without a lock, interleaved with locked reads, writes, evictions and flushes.  A device read
that overlaps a device write of the same page may deliver any bytes at all (`raced`).
-/

namespace Alaya.DiskPages

/-- A search between its peek and its fill: the page, the version it saw, and whether the device page changed since. -/
structure Pending where
  off : Nat
  ver : Nat
  raced : Bool

structure Sys where
  io : PageIO
  latest : Disk
  threads : Nat → Option Pending

/-- Ghost bookkeeping: which device reads in flight overlap a change of the page. -/
def race (d d' : Disk) (th : Nat → Option Pending) : Nat → Option Pending :=
  fun t => (th t).map (fun x => { x with raced := x.raced || decide (d' x.off ≠ d x.off) })

/-- One critical section.  The contents `latest` change only when a page write returns normally. -/
inductive Step (sh : Nat → Nat) (cap ps : Nat) : Sys → Sys → Prop
  | peekHit {s : Sys} {off : Nat} {b : Bytes} {p' : PageIO} : s.io.peek sh off = .inl (b, p') →
      Step sh cap ps s { s with io := p' }
  | peekMiss {s : Sys} {off t v : Nat} : s.threads t = none → s.io.peek sh off = .inr v →
      Step sh cap ps s { s with threads := fun x => if x = t then some ⟨off, v, false⟩ else s.threads x }
  | abandon {s : Sys} (t : Nat) : Step sh cap ps s { s with threads := fun x => if x = t then none else s.threads x }
  | fill {s : Sys} {t : Nat} {x : Pending} {io : Io} {buf : Bytes} {b : Option Bytes} {p' : PageIO} : s.threads t = some x →
      (x.raced = false → buf = s.io.disk x.off) →
      (s.io.fill sh ps io x.off buf x.ver = .ok (b, p') ∨ s.io.fill sh ps io x.off buf x.ver = .throws (b, p')) →
      Step sh cap ps s { s with io := p', threads := race s.io.disk p'.disk (fun y => if y = t then none else s.threads y) }
  | read {s : Sys} {io : Io} {off : Nat} {b : Option Bytes} {p' : PageIO} :
      (s.io.readPage sh ps io off = .ok (b, p') ∨ s.io.readPage sh ps io off = .throws (b, p')) →
      Step sh cap ps s { s with io := p', threads := race s.io.disk p'.disk s.threads }
  | write {s : Sys} {io : Io} {off : Nat} {b : Bytes} {p' : PageIO} : (cap = 0 → ∀ o, io o = none) → s.io.writePage sh io off b = .ok p' →
      Step sh cap ps s { io := p', latest := fun o => if o = off then b else s.latest o, threads := race s.io.disk p'.disk s.threads }
  | writeThrows {s : Sys} {io : Io} {off : Nat} {b : Bytes} {p' : PageIO} : (cap = 0 → ∀ o, io o = none) →
      s.io.writePage sh io off b = .throws p' →
      Step sh cap ps s { s with io := p', threads := race s.io.disk p'.disk s.threads }
  | flush {s : Sys} {io : Io} {orders : List (Nat × List Nat)} {p' : PageIO} :
      (PageIO.flush io orders s.io = .ok p' ∨ PageIO.flush io orders s.io = .throws p') →
      Step sh cap ps s { s with io := p', threads := race s.io.disk p'.disk s.threads }
  | extend {s : Sys} (fs : Nat) : Step sh cap ps s { s with io := { s.io with fileSize := fs } }

/-- Any schedule of critical sections from a freshly opened device. -/
inductive Sched (sh : Nat → Nat) (cap ps : Nat) (d0 : Disk) : Sys → Prop
  | init (fs : Nat) : Sched sh cap ps d0 ⟨PageIO.open' cap d0 fs, d0, fun _ => none⟩
  | step {s s' : Sys} : Sched sh cap ps d0 s → Step sh cap ps s s' → Sched sh cap ps d0 s'

/-- What the version protects: as long as the page's version is the observed one, the device page has not changed and is not dirty. -/
def Guarded (sh : Nat → Nat) (p : PageIO) (x : Pending) : Prop :=
  x.ver ≤ p.versions x.off ∧ (p.versions x.off = x.ver → x.raced = false ∧ ¬ GDirty sh p x.off)

theorem guarded_race {sh : Nat → Nat} {p p' : PageIO} {th : Nat → Option Pending} (h : ∀ t x, th t = some x → Guarded sh p x)
    (hstep : ∀ o, ¬ GDirty sh p o → p.versions o = p'.versions o → p'.disk o = p.disk o ∧ ¬ GDirty sh p' o)
    (hver : ∀ o, p.versions o ≤ p'.versions o) : ∀ t x, race p.disk p'.disk th t = some x → Guarded sh p' x := by
  intro t x hx
  unfold race at hx
  cases hy : th t with
  | none => rw [hy] at hx; cases hx
  | some y =>
    rw [hy] at hx
    simp only [Option.map_some, Option.some.injEq] at hx
    obtain ⟨g1, g2⟩ := h t y hy
    subst hx
    refine ⟨Nat.le_trans g1 (hver y.off), ?_⟩
    intro he
    simp only at he
    have hv := hver y.off
    have hpe : p.versions y.off = y.ver := by omega
    obtain ⟨r1, r2⟩ := g2 hpe
    obtain ⟨s1, s2⟩ := hstep y.off r2 (by omega)
    refine ⟨?_, s2⟩
    simp [r1, s1]

theorem GEffect.step {sh : Nat → Nat} {p p' : PageIO} {off : Nat} (e : GEffect sh p p' off false) (o : Nat) (hd : ¬ GDirty sh p o) :
    p'.disk o = p.disk o ∧ ¬ GDirty sh p' o := by
  refine ⟨?_, ?_⟩
  · apply Classical.byContradiction
    intro hh; exact hd (e.chg o hh)
  · intro hh
    rcases e.dirt o hh with h1 | h1
    · exact hd h1
    · cases h1.2

/-- A failing cache write leaves nothing newly dirty. -/
theorem writeThrows_dirty {sh : Nat → Nat} {p p' : PageIO} {io : Io} {off : Nat} {b : Bytes} {cap : Nat} {l : Disk} (h : GInv sh cap p l)
    (e : p.writePage sh io off b = .throws p') (hio : cap = 0 → ∀ o, io o = none) (o : Nat) (hd : ¬ GDirty sh p o) : ¬ GDirty sh p' o := by
  have hi := h.shard (sh off)
  intro hh
  have hs := writePage_spec h io hio off b
  rw [e] at hs
  rcases hs.2.1.dirt o hh with h1 | h1
  · exact hd h1
  · obtain ⟨rfl, -⟩ := h1
    unfold PageIO.writePage at e
    simp only at e
    by_cases h0 : (p.caches (sh o)).cap = 0
    · rw [if_pos h0] at e
      unfold pwrite at e
      rw [hio (by rw [← h.cap (sh o)]; exact h0)] at e
      cases e
    · rw [if_neg h0] at e
      cases hw : (p.caches (sh o)).write io p.disk o b true with
      | ub => rw [hw] at e; cases e
      | ok x => obtain ⟨c, d⟩ := x; rw [hw] at e; cases e
      | throws x =>
        obtain ⟨c, d⟩ := x
        rw [hw] at e
        simp only [Res.throws.injEq] at e
        have hc : c = p.caches (sh o) := by
          unfold Cache.write at hw
          rw [if_neg h0] at hw
          cases hf : (p.caches (sh o)).pages.find o with
          | some y => rw [hf] at hw; cases hw
          | none =>
            rw [hf] at hw
            simp only at hw
            split at hw
            · rw [evictExcess_id io _ p.disk hi.size] at hw
              simp only at hw
              cases hg : (p.caches (sh o)).lru.getLast? with
              | none => rw [hg] at hw; cases hw
              | some v =>
                rw [hg] at hw
                simp only at hw
                cases hv : (p.caches (sh o)).pages.find v with
                | none => rw [hv] at hw; cases hw
                | some y =>
                  rw [hv] at hw
                  simp only at hw
                  split at hw
                  · split at hw
                    · cases hw
                    · injection hw with hw; injection hw with e1 e2; exact e1.symm
                  · cases hw
            · cases hw
        subst e
        unfold GDirty PageIO.put at hh
        simp only [if_true] at hh
        rw [hc] at hh
        exact hd hh

structure SysInv (sh : Nat → Nat) (cap : Nat) (s : Sys) : Prop where
  io : GInv sh cap s.io s.latest
  thr : ∀ t x, s.threads t = some x → Guarded sh s.io x

/-- What the fill of a guarded search may install. -/
theorem fill_buf {sh : Nat → Nat} {cap : Nat} {s : Sys} (h : SysInv sh cap s) {t : Nat} {x : Pending} (hx : s.threads t = some x) {buf : Bytes}
    (hb : x.raced = false → buf = s.io.disk x.off) (hv : s.io.versions x.off = x.ver)
    (hm : (s.io.caches (sh x.off)).pages.find x.off = none) : buf = s.latest x.off := by
  obtain ⟨-, g2⟩ := h.thr t x hx
  rw [hb (g2 hv).1]
  exact (h.io.shard (sh x.off)).miss x.off rfl hm

theorem step_inv {sh : Nat → Nat} {cap ps : Nat} {s s' : Sys} (h : SysInv sh cap s) (st : Step sh cap ps s s') : SysInv sh cap s' := by
  cases st with
  | peekHit e =>
    rename_i off b p'
    have := peek_spec h.io off
    rw [e] at this
    obtain ⟨-, h2, h3, h4, h5, -⟩ := this
    refine ⟨h2, ?_⟩
    intro t x hx
    obtain ⟨g1, g2⟩ := h.thr t x hx
    refine ⟨by rw [h4]; exact g1, ?_⟩
    intro he
    simp only at he
    rw [h4] at he
    exact ⟨(g2 he).1, (h3.step x.off (g2 he).2).2⟩
  | peekMiss ht e =>
    rename_i off t v
    have := peek_spec h.io off
    rw [e] at this
    obtain ⟨h1, h2⟩ := this
    refine ⟨h.io, ?_⟩
    intro t' x hx
    simp only at hx
    by_cases htt : t' = t
    · rw [if_pos htt] at hx
      injection hx with hx
      subst hx
      refine ⟨by simp [h1], fun _ => ⟨rfl, ?_⟩⟩
      rintro ⟨y, hy, -⟩
      simp only at hy
      rw [h2] at hy; cases hy
    · rw [if_neg htt] at hx
      exact h.thr t' x hx
  | abandon t =>
    refine ⟨h.io, ?_⟩
    intro t' x hx
    simp only at hx
    by_cases htt : t' = t
    · rw [if_pos htt] at hx; cases hx
    · rw [if_neg htt] at hx; exact h.thr t' x hx
  | fill hx hb e =>
    rename_i t x io buf b p'
    have hf := fill_spec (ps := ps) h.io io x.off buf x.ver (fun hv hm => fill_buf h hx hb hv hm)
    have hthr : ∀ t' y, (if t' = t then none else s.threads t') = some y → Guarded sh s.io y := by
      intro t' y hy
      by_cases htt : t' = t
      · rw [if_pos htt] at hy; cases hy
      · rw [if_neg htt] at hy; exact h.thr t' y hy
    have hgi : GInv sh cap p' s.latest ∧ GEffect sh s.io p' x.off false ∧ p'.versions = s.io.versions := by
      rcases e with e | e <;> rw [e] at hf <;> exact ⟨hf.2.1, hf.2.2.1, hf.2.2.2.1⟩
    exact ⟨hgi.1, guarded_race hthr (fun o hd _ => hgi.2.1.step o hd) (fun o => by rw [hgi.2.2]; exact Nat.le_refl _)⟩
  | read e =>
    rename_i io off b p'
    have hf := readPage_spec (ps := ps) h.io io off
    have hgi : GInv sh cap p' s.latest ∧ GEffect sh s.io p' off false ∧ p'.versions = s.io.versions := by
      rcases e with e | e <;> rw [e] at hf <;> exact ⟨hf.2.1, hf.2.2.1, hf.2.2.2.1⟩
    exact ⟨hgi.1, guarded_race h.thr (fun o hd _ => hgi.2.1.step o hd) (fun o => by rw [hgi.2.2]; exact Nat.le_refl _)⟩
  | write hio e =>
    rename_i io off b p'
    have hf := writePage_spec h.io io hio off b
    rw [e] at hf
    obtain ⟨h1, h2, h3, h4, -⟩ := hf
    refine ⟨h1, guarded_race h.thr ?_ ?_⟩
    · intro o hd hv
      have hne : o ≠ off := by
        intro hh
        rw [h4 o, if_pos hh] at hv
        omega
      refine ⟨?_, ?_⟩
      · apply Classical.byContradiction
        intro hh; exact hd (h2 o hne hh)
      · intro hh
        rcases h3 o hh with x | x
        · exact hd x
        · exact hne x
    · intro o
      rw [h4 o]
      split <;> omega
  | writeThrows hio e =>
    rename_i io off b p'
    have hf := writePage_spec h.io io hio off b
    rw [e] at hf
    obtain ⟨h1, h2, h3, -⟩ := hf
    refine ⟨h1, guarded_race h.thr ?_ (fun o => by rw [h3]; exact Nat.le_refl _)⟩
    intro o hd _
    refine ⟨?_, writeThrows_dirty h.io e hio o hd⟩
    apply Classical.byContradiction
    intro hh; exact hd (h2.chg o hh)
  | flush e =>
    rename_i io orders p'
    have hf := flush_spec io orders h.io
    have hgi : GInv sh cap p' s.latest ∧ GEffect sh s.io p' 0 false ∧ p'.versions = s.io.versions := by
      rcases e with e | e <;> rw [e] at hf <;> exact ⟨hf.1, hf.2.1, hf.2.2.1⟩
    exact ⟨hgi.1, guarded_race h.thr (fun o hd _ => hgi.2.1.step o hd) (fun o => by rw [hgi.2.2]; exact Nat.le_refl _)⟩
  | extend fs => exact ⟨⟨h.io.shard, h.io.cap⟩, h.thr⟩

theorem sched_inv {sh : Nat → Nat} {cap ps : Nat} {d0 : Disk} {s : Sys} (h : Sched sh cap ps d0 s) : SysInv sh cap s := by
  induction h with
  | init fs => exact ⟨open_inv sh cap d0 fs, fun t x hx => by cases hx⟩
  | step _ st ih => exact step_inv ih st

/-- Whatever was going on since the search missed the cache, the bytes it goes on with after its fill are the latest contents of the page at
that moment, and so are the bytes the cache holds for the page afterwards. -/
theorem C40_fill_latest {sh : Nat → Nat} {cap ps : Nat} {d0 : Disk} {s : Sys} (h : Sched sh cap ps d0 s) {t : Nat} {x : Pending}
    (hx : s.threads t = some x) {buf : Bytes} (hb : x.raced = false → buf = s.io.disk x.off) (io : Io) :
    match s.io.fill sh ps io x.off buf x.ver with
    | .ub => False
    | .throws (b, p') => b = none ∧ ∀ e, (p'.caches (sh x.off)).pages.find x.off = some e → e.bytes = s.latest x.off
    | .ok (b, p') => b = some (s.latest x.off) ∧ ∀ e, (p'.caches (sh x.off)).pages.find x.off = some e → e.bytes = s.latest x.off := by
  have hi := sched_inv h
  have hf := fill_spec (ps := ps) hi.io io x.off buf x.ver (fun hv hm => fill_buf hi hx hb hv hm)
  cases e : s.io.fill sh ps io x.off buf x.ver with
  | ub => rw [e] at hf; exact hf
  | throws y =>
    rw [e] at hf
    exact ⟨hf.1, fun z hz => ((hf.2.1.shard (sh x.off)).entry x.off z hz).1⟩
  | ok y =>
    rw [e] at hf
    exact ⟨hf.1, fun z hz => ((hf.2.1.shard (sh x.off)).entry x.off z hz).1⟩

/-- A device read that overlapped a write of the page is never installed: the version check discards it. -/
theorem C40_raced_discarded {sh : Nat → Nat} {cap ps : Nat} {d0 : Disk} {s : Sys} (h : Sched sh cap ps d0 s) {t : Nat} {x : Pending}
    (hx : s.threads t = some x) (hr : x.raced = true) : s.io.versions x.off ≠ x.ver := by
  intro hv
  have := ((sched_inv h).thr t x hx).2 hv
  rw [hr] at this
  cases this.1

/-- Every page any cache holds, in any schedule, is the latest contents; a cache hit of a search returns them. -/
theorem C40_cache_coherent {sh : Nat → Nat} {cap ps : Nat} {d0 : Disk} {s : Sys} (h : Sched sh cap ps d0 s) :
    (∀ off e, (s.io.caches (sh off)).pages.find off = some e → e.bytes = s.latest off) ∧
    (∀ off b p', s.io.peek sh off = .inl (b, p') → b = s.latest off) := by
  have hi := sched_inv h
  refine ⟨fun off e he => ((hi.io.shard (sh off)).entry off e he).1, ?_⟩
  intro off b p' e
  have := peek_spec hi.io off
  rw [e] at this
  exact this.1

section Witness

private def d0' : Disk := fun _ => [0]
private def sh0 : Nat → Nat := fun _ => 0
private def p0 : PageIO := PageIO.open' 1 d0' 65536

/-- Non-vacuous: a search misses page 0 (version 0); an update writes page 0, then page 4096 evicts it to the device while the search is
reading; the search's torn bytes `[7]` are discarded and it goes on with `[1]`. -/
example : ∃ s : Sys, Sched sh0 1 4096 d0' s ∧ s.threads 5 = some ⟨0, 0, true⟩ ∧ s.latest 0 = [1] ∧
    (match s.io.fill sh0 4096 (fun _ => none) 0 [7] 0 with | .ok (b, _) => b | _ => none) = some [1] := by
  obtain ⟨p1, h1⟩ : ∃ p, p0.writePage sh0 (fun _ => none) 0 [1] = .ok p := ⟨_, rfl⟩
  obtain ⟨p2, h2⟩ : ∃ p, p1.writePage sh0 (fun _ => none) 4096 [2] = .ok p := by
    injection h1 with h1; subst h1; exact ⟨_, rfl⟩
  refine ⟨⟨p2, fun o => if o = 4096 then [2] else if o = 0 then [1] else d0' o,
    race p1.disk p2.disk (race p0.disk p1.disk (fun x => if x = 5 then some ⟨0, 0, false⟩ else none))⟩, ?_, ?_, ?_, ?_⟩
  · refine .step (.step (.step (.init 65536) (.peekMiss (off := 0) (t := 5) (v := 0) rfl rfl)) (.write (off := 0) (b := [1]) (fun _ _ => rfl) h1))
      (.write (off := 4096) (b := [2]) (fun _ _ => rfl) h2)
  all_goals
    injection h1 with h1; subst h1
    injection h2 with h2; subst h2
    rfl

end Witness

end Alaya.DiskPages
