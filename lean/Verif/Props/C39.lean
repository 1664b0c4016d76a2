import Verif.Lemmas.DiskPageIO

/-!
C39 — the page cache of `DiskPageIO`.  Specification: a function `latest` from page offsets to bytes; it starts as the contents of
the device and changes only when a page write returns normally.
-/

namespace Alaya.DiskPages

/-- Histories of locked page operations over a device that initially holds `d0`.  Page writes to the device may fail at any page
(`io`) and then leave arbitrary bytes in that page; without a cache (capacity 0) device writes are assumed to succeed, as then no
other copy of the page exists. -/
inductive Hist (sh : Nat → Nat) (cap ps : Nat) (d0 : Disk) : PageIO → Disk → Prop
  | init (fs : Nat) : Hist sh cap ps d0 (PageIO.open' cap d0 fs) d0
  | read {p p' : PageIO} {l : Disk} {io : Io} {off : Nat} {b : Option Bytes} : Hist sh cap ps d0 p l →
      p.readPage sh ps io off = .ok (b, p') → Hist sh cap ps d0 p' l
  | readThrows {p p' : PageIO} {l : Disk} {io : Io} {off : Nat} {b : Option Bytes} : Hist sh cap ps d0 p l →
      p.readPage sh ps io off = .throws (b, p') → Hist sh cap ps d0 p' l
  | write {p p' : PageIO} {l : Disk} {io : Io} {off : Nat} {b : Bytes} : Hist sh cap ps d0 p l → (cap = 0 → ∀ o, io o = none) →
      p.writePage sh io off b = .ok p' → Hist sh cap ps d0 p' (fun o => if o = off then b else l o)
  | writeThrows {p p' : PageIO} {l : Disk} {io : Io} {off : Nat} {b : Bytes} : Hist sh cap ps d0 p l → (cap = 0 → ∀ o, io o = none) →
      p.writePage sh io off b = .throws p' → Hist sh cap ps d0 p' l
  | flush {p p' : PageIO} {l : Disk} {io : Io} {orders : List (Nat × List Nat)} : Hist sh cap ps d0 p l →
      PageIO.flush io orders p = .ok p' → Hist sh cap ps d0 p' l
  | flushThrows {p p' : PageIO} {l : Disk} {io : Io} {orders : List (Nat × List Nat)} : Hist sh cap ps d0 p l →
      PageIO.flush io orders p = .throws p' → Hist sh cap ps d0 p' l
  | peek {p p' : PageIO} {l : Disk} {off : Nat} {b : Bytes} : Hist sh cap ps d0 p l → p.peek sh off = .inl (b, p') → Hist sh cap ps d0 p' l
  | extend {p : PageIO} {l : Disk} (fs : Nat) : Hist sh cap ps d0 p l → Hist sh cap ps d0 { p with fileSize := fs } l

theorem hist_inv {sh : Nat → Nat} {cap ps : Nat} {d0 : Disk} {p : PageIO} {l : Disk} (h : Hist sh cap ps d0 p l) : GInv sh cap p l := by
  induction h with
  | init fs => exact open_inv sh cap d0 fs
  | read _ e ih =>
    rename_i io off b _
    have := readPage_spec (ps := ps) ih io off
    rw [e] at this; exact this.2.1
  | readThrows _ e ih =>
    rename_i io off b _
    have := readPage_spec (ps := ps) ih io off
    rw [e] at this; exact this.2.1
  | write _ hio e ih =>
    rename_i io off b _
    have := writePage_spec ih io hio off b
    rw [e] at this; exact this.1
  | writeThrows _ hio e ih =>
    rename_i io off b _
    have := writePage_spec ih io hio off b
    rw [e] at this; exact this.1
  | flush _ e ih =>
    rename_i io orders _
    have := flush_spec io orders ih
    rw [e] at this; exact this.1
  | flushThrows _ e ih =>
    rename_i io orders _
    have := flush_spec io orders ih
    rw [e] at this; exact this.1
  | peek _ e ih =>
    rename_i off b _
    have := peek_spec ih off
    rw [e] at this; exact this.2.1
  | extend fs _ ih => exact ⟨ih.shard, ih.cap⟩

/-- A page read returns the last bytes written to the page; so does a cache hit of a search. -/
theorem C39_read_latest {sh : Nat → Nat} {cap ps : Nat} {d0 : Disk} {p : PageIO} {l : Disk} (h : Hist sh cap ps d0 p l) :
    (∀ io off b p', p.readPage sh ps io off = .ok (b, p') → b = some (l off)) ∧
    (∀ off b p', p.peek sh off = .inl (b, p') → b = l off) := by
  refine ⟨?_, ?_⟩
  · intro io off b p' e
    have := readPage_spec (ps := ps) (hist_inv h) io off
    rw [e] at this; exact this.1
  · intro off b p' e
    have := peek_spec (hist_inv h) off
    rw [e] at this; exact this.1

/-- No operation reaches undefined behaviour, and a read inside the file over a device that does not fail never throws. -/
theorem C39_total {sh : Nat → Nat} {cap ps : Nat} {d0 : Disk} {p : PageIO} {l : Disk} (h : Hist sh cap ps d0 p l) :
    (∀ io off, p.readPage sh ps io off ≠ .ub) ∧ (∀ io off b, (cap = 0 → ∀ o, io o = none) → p.writePage sh io off b ≠ .ub) ∧
    (∀ io orders, PageIO.flush io orders p ≠ .ub) ∧
    (∀ io off, (∀ o, io o = none) → off + ps ≤ p.fileSize → ∃ p', p.readPage sh ps io off = .ok (some (l off), p')) := by
  have hi := hist_inv h
  refine ⟨?_, ?_, ?_, ?_⟩
  · intro io off e
    have := readPage_spec (ps := ps) hi io off
    rw [e] at this; exact this
  · intro io off b hio e
    have := writePage_spec hi io hio off b
    rw [e] at this; exact this
  · intro io orders e
    have := flush_spec io orders hi
    rw [e] at this; exact this
  · intro io off hio hfs
    have hr := readPage_spec (ps := ps) hi io off
    cases e : p.readPage sh ps io off with
    | ub => rw [e] at hr; exact hr.elim
    | throws x =>
      rw [e] at hr
      obtain ⟨-, -, -, -, -, hh | ⟨o, hh⟩⟩ := hr
      · omega
      · exact absurd (hio o) hh
    | ok x =>
      obtain ⟨b, p'⟩ := x
      rw [e] at hr
      exact ⟨p', by rw [hr.1]⟩

/-- A page that is not in the cache is current on the device: an evicted dirty page has been written before it was dropped. -/
theorem C39_evicted_on_disk {sh : Nat → Nat} {cap ps : Nat} {d0 : Disk} {p : PageIO} {l : Disk} (h : Hist sh cap ps d0 p l) (off : Nat)
    (hout : off ∉ (p.caches (sh off)).pages.map (·.1)) : p.disk off = l off := by
  have hi := (hist_inv h).shard (sh off)
  refine hi.miss off rfl ?_
  exact (find_none_iff _ _).2 hout

/-- A flush that visits every cached page of every shard and returns normally leaves the last written bytes of every page on the
device. -/
theorem C39_flush_complete {sh : Nat → Nat} {cap ps : Nat} {d0 : Disk} {p p' : PageIO} {l : Disk} (h : Hist sh cap ps d0 p l) {io : Io}
    {orders : List (Nat × List Nat)} (hall : ∀ o, o ∈ (p.caches (sh o)).pages.map (·.1) → ∃ order, (sh o, order) ∈ orders ∧ o ∈ order)
    (hf : PageIO.flush io orders p = .ok p') : ∀ off, p'.disk off = l off := by
  have hi := hist_inv h
  have hs := flush_spec io orders hi
  rw [hf] at hs
  obtain ⟨h1, -, -, -, h5, h6⟩ := hs
  intro off
  have hc := h1.shard (sh off)
  cases hfd : (p'.caches (sh off)).pages.find off with
  | none => exact hc.miss off rfl hfd
  | some e =>
    have he := hc.entry off e hfd
    have hk : off ∈ (p.caches (sh off)).pages.map (·.1) := by
      have := find_some_mem hfd
      rw [h6] at this
      exact this
    obtain ⟨order, m1, m2⟩ := hall off hk
    have hnd := h5 off ⟨sh off, order, m1, rfl, m2⟩
    cases hd : e.dirty with
    | true => exact absurd ⟨e, hfd, hd⟩ hnd
    | false => rw [he.2 hd, he.1]

/-- Without failing device writes a flush does return normally. -/
theorem flushDirty_ok (io : Io) (hio : ∀ o, io o = none) : ∀ (order : List Nat) (c : Cache) (d : Disk), ∃ s, flushDirty io order c d = .ok s
  | [], c, d => ⟨_, rfl⟩
  | o :: rest, c, d => by
    unfold flushDirty
    cases h : c.pages.find o with
    | none => exact flushDirty_ok io hio rest c d
    | some e =>
      simp only [pwrite, hio]
      by_cases hd : e.dirty = true
      · rw [if_pos hd]; exact flushDirty_ok io hio rest _ _
      · rw [if_neg hd]; exact flushDirty_ok io hio rest c d

theorem C39_flush_returns (io : Io) (hio : ∀ o, io o = none) : ∀ (orders : List (Nat × List Nat)) (p : PageIO),
    ∃ p', PageIO.flush io orders p = .ok p'
  | [], p => ⟨p, rfl⟩
  | (s, order) :: rest, p => by
    unfold PageIO.flush
    obtain ⟨⟨c, d⟩, hs⟩ := flushDirty_ok io hio order (p.caches s) p.disk
    rw [hs]
    exact C39_flush_returns io hio rest _

section Witness

private def sh2 : Nat → Nat := fun o => o / 4096 % 2
private def d0 : Disk := fun _ => [0]
private def run1 : Option (PageIO × Option Bytes × Bytes × Bytes) :=
  match (PageIO.open' 1 d0 65536).writePage sh2 (fun _ => none) 0 [1] with
  | .ok p => match p.writePage sh2 (fun _ => none) 8192 [2] with  -- same shard: evicts page 0
    | .ok p => match p.readPage sh2 4096 (fun _ => none) 0 with
      | .ok (b, p) => some (p, b, p.disk 0, p.disk 8192)
      | _ => none
    | _ => none
  | _ => none

/-- Non-vacuous: with one cached page per shard, the second write evicts (and writes) the first page; the read brings it back, evicting
(and writing) the second. -/
example : run1.map (fun x => (x.2.1, x.2.2.1, x.2.2.2)) = some (some [1], [1], [2]) := by decide

/-- With a failing device the eviction throws, the new page is not installed and the old one is still served. -/
example : (match (PageIO.open' 1 d0 65536).writePage sh2 (fun _ => none) 0 [1] with
    | .ok p => match p.writePage sh2 (fun _ => some [9]) 8192 [2] with
      | .throws p => match p.readPage sh2 4096 (fun _ => none) 0 with
        | .ok (b, p) => some (b, p.disk 0, p.disk 8192)
        | _ => none
      | _ => none
    | _ => none) = some (some [1], [9], [0]) := by decide

end Witness

end Alaya.DiskPages
