import Verif.Lemmas.DiskPages

namespace Alaya.DiskPages

/-- All shards over the disk represent the contents `latest`. -/
structure GInv (sh : Nat → Nat) (cap : Nat) (p : PageIO) (latest : Disk) : Prop where
  shard : ∀ s, CInv (p.caches s) p.disk latest (fun o => sh o = s)
  cap : ∀ s, (p.caches s).cap = cap

/-- A page is dirty in its cache. -/
def GDirty (sh : Nat → Nat) (p : PageIO) (o : Nat) : Prop := Dirty (p.caches (sh o)) o

/-- What an operation may do to the disk and to the dirty pages. -/
structure GEffect (sh : Nat → Nat) (p p' : PageIO) (off : Nat) (dirty : Bool) : Prop where
  chg : ∀ o, p'.disk o ≠ p.disk o → GDirty sh p o
  dirt : ∀ o, GDirty sh p' o → GDirty sh p o ∨ (o = off ∧ dirty = true)

theorem GEffect.refl (sh : Nat → Nat) (p : PageIO) (off : Nat) (dirty : Bool) : GEffect sh p p off dirty :=
  ⟨fun _ h => absurd rfl h, fun _ h => Or.inl h⟩

theorem put_inv {sh : Nat → Nat} {cap : Nat} {p : PageIO} {latest latest' : Disk} (h : GInv sh cap p latest) {s : Nat} {c : Cache} {d : Disk}
    (hc : CInv c d latest' (fun o => sh o = s)) (hcap : c.cap = cap) (hd : ∀ o, sh o ≠ s → d o = p.disk o)
    (hl : ∀ o, sh o ≠ s → latest' o = latest o) : GInv sh cap (p.put s c d) latest' := by
  refine ⟨?_, ?_⟩
  · intro x
    unfold PageIO.put
    simp only
    by_cases hx : x = s
    · rw [if_pos hx, hx]; exact hc
    · rw [if_neg hx]
      have hi := h.shard x
      refine ⟨hi.lruNd, hi.keysNd, hi.same, hi.size, hi.own, ?_, ?_⟩
      · intro o e he
        have hso : sh o = x := hi.own o (find_some_mem he)
        have hne : sh o ≠ s := by rw [hso]; exact hx
        rw [hd o hne, hl o hne]
        exact hi.entry o e he
      · intro o ho he
        have hso : sh o = x := ho
        have hne : sh o ≠ s := by rw [hso]; exact hx
        rw [hd o hne, hl o hne]
        exact hi.miss o ho he
  · intro x
    unfold PageIO.put
    simp only
    by_cases hx : x = s
    · rw [if_pos hx]; exact hcap
    · rw [if_neg hx]; exact h.cap x

theorem put_effect {sh : Nat → Nat} {p : PageIO} {s off : Nat} {dirty : Bool} {c : Cache} {d : Disk}
    (he : Effect (p.caches s) p.disk (fun o => sh o = s) off dirty c d) : GEffect sh p (p.put s c d) off dirty := by
  refine ⟨?_, ?_⟩
  · intro o ho
    have hs : sh o = s := by
      by_cases hs : sh o = s
      · exact hs
      · exact absurd (he.frame o hs) ho
    unfold GDirty
    rw [hs]
    exact he.chg o ho
  · intro o ho
    unfold GDirty PageIO.put at ho
    unfold GDirty
    simp only at ho
    by_cases hs : sh o = s
    · rw [if_pos hs] at ho
      rw [hs]
      exact he.dirt o ho
    · rw [if_neg hs] at ho
      exact Or.inl ho

theorem readPage_spec {sh : Nat → Nat} {cap ps : Nat} {p : PageIO} {latest : Disk} (h : GInv sh cap p latest) (io : Io) (off : Nat) :
    match p.readPage sh ps io off with
    | .ub => False
    | .throws (b, p') => b = none ∧ GInv sh cap p' latest ∧ GEffect sh p p' off false ∧ p'.versions = p.versions ∧ p'.fileSize = p.fileSize ∧
        (p.fileSize < off + ps ∨ ∃ o, io o ≠ none)
    | .ok (b, p') => b = some (latest off) ∧ GInv sh cap p' latest ∧ GEffect sh p p' off false ∧ p'.versions = p.versions ∧
        p'.fileSize = p.fileSize := by
  unfold PageIO.readPage
  simp only
  have hi := h.shard (sh off)
  have hr := read_spec hi off
  cases hrd : (p.caches (sh off)).read off with
  | some x =>
    obtain ⟨b, c⟩ := x
    rw [hrd] at hr
    obtain ⟨h1, h2, h3, h4, -⟩ := hr
    simp only
    refine ⟨by rw [h1], put_inv h h2 (by rw [h3]; exact h.cap _) (fun _ _ => rfl) (fun _ _ => rfl), ?_, rfl, rfl⟩
    refine put_effect ⟨h3, fun _ _ => rfl, fun _ hh => absurd rfl hh, ?_⟩
    intro o ho
    unfold Dirty at ho
    rw [h4] at ho
    exact Or.inl ho
  | none =>
    rw [hrd] at hr
    have hmiss : (p.caches (sh off)).pages.find off = none := by
      rcases hr with hr | hr
      · exact cap_zero_find hi hr off
      · exact hr
    have hdl : p.disk off = latest off := hi.miss off rfl hmiss
    simp only
    by_cases hfs : p.fileSize < off + ps
    · rw [if_pos hfs]
      exact ⟨rfl, h, GEffect.refl _ _ _ _, rfl, rfl, Or.inl hfs⟩
    · rw [if_neg hfs]
      have hw := write_spec hi io (off := off) rfl (p.disk off) false (fun _ => hdl) (by intro hh; cases hh)
      cases hwr : (p.caches (sh off)).write io p.disk off (p.disk off) false with
      | ub => rw [hwr] at hw; exact hw
      | throws s =>
        obtain ⟨c, d⟩ := s
        rw [hwr] at hw
        obtain ⟨w1, w2⟩ := hw
        refine ⟨rfl, put_inv h w1 (by rw [w2.cap]; exact h.cap _) (fun o ho => w2.frame o ho) (fun _ _ => rfl), put_effect w2, rfl, rfl, Or.inr ?_⟩
        apply Classical.byContradiction
        intro hno
        have hio : ∀ o, io o = none := by
          intro o
          cases hh : io o with
          | none => rfl
          | some j => exact absurd ⟨o, by rw [hh]; simp⟩ hno
        unfold Cache.write at hwr
        by_cases h0 : (p.caches (sh off)).cap = 0
        · rw [if_pos h0] at hwr; cases hwr
        · rw [if_neg h0, hmiss] at hwr
          simp only at hwr
          by_cases hf : (p.caches (sh off)).cap ≤ (p.caches (sh off)).pages.length
          · rw [if_pos hf, evictExcess_id io _ p.disk hi.size] at hwr
            simp only at hwr
            cases hg : (p.caches (sh off)).lru.getLast? with
            | none => rw [hg] at hwr; cases hwr
            | some v =>
              rw [hg] at hwr
              simp only at hwr
              cases hv : (p.caches (sh off)).pages.find v with
              | none => rw [hv] at hwr; cases hwr
              | some e =>
                rw [hv] at hwr
                simp only [pwrite, hio] at hwr
                split at hwr <;> cases hwr
          · rw [if_neg hf] at hwr; cases hwr
      | ok s =>
        obtain ⟨c, d⟩ := s
        rw [hwr] at hw
        obtain ⟨w1, w2⟩ := hw
        rw [hdl, upd_self] at w1
        exact ⟨by rw [hdl], put_inv h w1 (by rw [w2.cap]; exact h.cap _) (fun o ho => w2.frame o ho) (fun _ _ => rfl), put_effect w2, rfl, rfl⟩

theorem bump_inv {sh : Nat → Nat} {cap : Nat} {p : PageIO} {latest : Disk} (h : GInv sh cap p latest) (v : Nat → Nat) :
    GInv sh cap { p with versions := v } latest := ⟨h.shard, h.cap⟩

theorem writePage_spec {sh : Nat → Nat} {cap : Nat} {p : PageIO} {latest : Disk} (h : GInv sh cap p latest) (io : Io)
    (hio : cap = 0 → ∀ o, io o = none) (off : Nat) (b : Bytes) :
    match p.writePage sh io off b with
    | .ub => False
    | .throws p' => GInv sh cap p' latest ∧ GEffect sh p p' off true ∧ p'.versions = p.versions ∧ p'.fileSize = p.fileSize
    | .ok p' => GInv sh cap p' (upd latest off b) ∧ (∀ o, o ≠ off → p'.disk o ≠ p.disk o → GDirty sh p o) ∧
        (∀ o, GDirty sh p' o → GDirty sh p o ∨ o = off) ∧
        (∀ o, p'.versions o = if o = off then p.versions o + 1 else p.versions o) ∧ p'.fileSize = p.fileSize := by
  unfold PageIO.writePage
  simp only
  have hi := h.shard (sh off)
  by_cases h0 : (p.caches (sh off)).cap = 0
  · rw [if_pos h0]
    have hc0 : cap = 0 := by rw [← h.cap (sh off)]; exact h0
    unfold pwrite
    rw [hio hc0 off]
    simp only
    refine ⟨⟨?_, h.cap⟩, ?_, ?_, fun _ => by simp, trivial⟩
    · intro s
      have hs := h.shard s
      have he := cap_zero_find hs (by rw [h.cap s]; exact hc0)
      refine ⟨hs.lruNd, hs.keysNd, hs.same, hs.size, hs.own, ?_, ?_⟩
      · intro o e hh
        simp only at hh
        rw [he o] at hh; cases hh
      · intro o ho _
        simp only
        unfold upd
        by_cases hx : o = off
        · rw [if_pos hx, if_pos hx]
        · rw [if_neg hx, if_neg hx]
          exact hs.miss o ho (he o)
    · intro o ho hh
      rw [if_neg ho] at hh
      exact absurd rfl hh
    · intro o ho
      exact Or.inl ho
  · rw [if_neg h0]
    have hw := write_spec hi io (off := off) rfl b true (by intro hh; cases hh) (fun _ => by omega)
    cases hwr : (p.caches (sh off)).write io p.disk off b true with
    | ub => rw [hwr] at hw; exact hw
    | throws s =>
      obtain ⟨c, d⟩ := s
      rw [hwr] at hw
      obtain ⟨w1, w2⟩ := hw
      exact ⟨put_inv h w1 (by rw [w2.cap]; exact h.cap _) (fun o ho => w2.frame o ho) (fun _ _ => rfl), put_effect w2, rfl, rfl⟩
    | ok s =>
      obtain ⟨c, d⟩ := s
      rw [hwr] at hw
      obtain ⟨w1, w2⟩ := hw
      have he := put_effect (p := p) w2
      refine ⟨bump_inv (put_inv h w1 (by rw [w2.cap]; exact h.cap _) (fun o ho => w2.frame o ho) ?_) _, fun o _ hh => he.chg o hh, ?_,
        fun _ => rfl, rfl⟩
      · intro o ho
        unfold upd
        rw [if_neg]
        rintro rfl; exact ho rfl
      · intro o ho
        rcases he.dirt o ho with hh | hh
        · exact Or.inl hh
        · exact Or.inr hh.1

theorem flush_spec {sh : Nat → Nat} {cap : Nat} {latest : Disk} (io : Io) : ∀ (orders : List (Nat × List Nat)) {p : PageIO} (_ : GInv sh cap p latest),
    match PageIO.flush io orders p with
    | .ub => False
    | .throws p' => GInv sh cap p' latest ∧ GEffect sh p p' 0 false ∧ p'.versions = p.versions ∧ p'.fileSize = p.fileSize
    | .ok p' => GInv sh cap p' latest ∧ GEffect sh p p' 0 false ∧ p'.versions = p.versions ∧ p'.fileSize = p.fileSize ∧
        (∀ o, (∃ s order, (s, order) ∈ orders ∧ sh o = s ∧ o ∈ order) → ¬ GDirty sh p' o) ∧
        (∀ s, (p'.caches s).pages.keys = (p.caches s).pages.keys)
  | [], p, h => ⟨h, GEffect.refl _ _ _ _, rfl, rfl, (by rintro o ⟨s, order, hh, _⟩; cases hh), fun _ => rfl⟩
  | (s, order) :: rest, p, h => by
    unfold PageIO.flush
    have hf := flushDirty_spec io order (h.shard s)
    cases hfr : flushDirty io order (p.caches s) p.disk with
    | ub => rw [hfr] at hf; exact hf
    | throws x =>
      obtain ⟨c, d⟩ := x
      rw [hfr] at hf
      obtain ⟨w1, w2⟩ := hf
      exact ⟨put_inv h w1 (by rw [w2.cap]; exact h.cap _) (fun o ho => w2.frame o ho) (fun _ _ => rfl), put_effect w2, rfl, rfl⟩
    | ok x =>
      obtain ⟨c, d⟩ := x
      rw [hfr] at hf
      obtain ⟨w1, w2, w3, w4⟩ := hf
      simp only
      have hp := put_inv h w1 (by rw [w2.cap]; exact h.cap _) (fun o ho => w2.frame o ho) (fun _ _ => rfl)
      have he := put_effect (p := p) w2
      have hcomp : ∀ {p' : PageIO}, GEffect sh (p.put s c d) p' 0 false → GEffect sh p p' 0 false := by
        intro p' e2
        refine ⟨?_, ?_⟩
        · intro o ho
          by_cases hx : (p.put s c d).disk o = p.disk o
          · rcases he.dirt o (e2.chg o (by rw [hx]; exact ho)) with hh | hh
            · exact hh
            · cases hh.2
          · exact he.chg o hx
        · intro o ho
          rcases e2.dirt o ho with hh | hh
          · exact he.dirt o hh
          · exact Or.inr hh
      have ih := flush_spec io rest hp
      cases hr : PageIO.flush io rest (p.put s c d) with
      | ub => rw [hr] at ih; exact ih
      | throws p' =>
        rw [hr] at ih
        obtain ⟨i1, i2, i3, i4⟩ := ih
        exact ⟨i1, hcomp i2, i3, i4⟩
      | ok p' =>
        rw [hr] at ih
        obtain ⟨i1, i2, i3, i4, i5, i6⟩ := ih
        refine ⟨i1, hcomp i2, i3, i4, ?_, ?_⟩
        · rintro o ⟨s', order', hmem, hs, ho⟩ hd
          rcases List.mem_cons.1 hmem with heq | hmem
          · injection heq with e1 e2
            subst e1; subst e2
            rcases i2.dirt o hd with hh | hh
            · unfold GDirty PageIO.put at hh
              simp only [hs, if_true] at hh
              exact w3 o ho hh
            · cases hh.2
          · exact i5 o ⟨s', order', hmem, hs, ho⟩ hd
        · intro x
          rw [i6 x]
          unfold PageIO.put
          simp only
          by_cases hx : x = s
          · rw [if_pos hx, w4, hx]
          · rw [if_neg hx]

theorem peek_spec {sh : Nat → Nat} {cap : Nat} {p : PageIO} {latest : Disk} (h : GInv sh cap p latest) (off : Nat) :
    match p.peek sh off with
    | .inl (b, p') => b = latest off ∧ GInv sh cap p' latest ∧ GEffect sh p p' off false ∧ p'.versions = p.versions ∧ p'.disk = p.disk ∧
        p'.fileSize = p.fileSize
    | .inr v => v = p.versions off ∧ (p.caches (sh off)).pages.find off = none := by
  unfold PageIO.peek
  have hi := h.shard (sh off)
  have hr := read_spec hi off
  cases hrd : (p.caches (sh off)).read off with
  | some x =>
    obtain ⟨b, c⟩ := x
    rw [hrd] at hr
    obtain ⟨h1, h2, h3, h4, -⟩ := hr
    refine ⟨h1, put_inv h h2 (by rw [h3]; exact h.cap _) (fun _ _ => rfl) (fun _ _ => rfl), ?_, rfl, rfl, rfl⟩
    refine put_effect ⟨h3, fun _ _ => rfl, fun _ hh => absurd rfl hh, ?_⟩
    intro o ho
    unfold Dirty at ho
    rw [h4] at ho
    exact Or.inl ho
  | none =>
    rw [hrd] at hr
    refine ⟨rfl, ?_⟩
    rcases hr with hr | hr
    · exact cap_zero_find hi hr off
    · exact hr

/-- Filling with the content of the page. -/
theorem fill_spec {sh : Nat → Nat} {cap ps : Nat} {p : PageIO} {latest : Disk} (h : GInv sh cap p latest) (io : Io) (off : Nat) (buf : Bytes)
    (ver : Nat) (hbuf : p.versions off = ver → (p.caches (sh off)).pages.find off = none → buf = latest off) :
    match p.fill sh ps io off buf ver with
    | .ub => False
    | .throws (b, p') => b = none ∧ GInv sh cap p' latest ∧ GEffect sh p p' off false ∧ p'.versions = p.versions ∧ p'.fileSize = p.fileSize
    | .ok (b, p') => b = some (latest off) ∧ GInv sh cap p' latest ∧ GEffect sh p p' off false ∧ p'.versions = p.versions ∧
        p'.fileSize = p.fileSize := by
  unfold PageIO.fill
  simp only
  have hi := h.shard (sh off)
  have hr := read_spec hi off
  cases hrd : (p.caches (sh off)).read off with
  | some x =>
    obtain ⟨b, c⟩ := x
    rw [hrd] at hr
    obtain ⟨h1, h2, h3, h4, -⟩ := hr
    refine ⟨by rw [h1], put_inv h h2 (by rw [h3]; exact h.cap _) (fun _ _ => rfl) (fun _ _ => rfl), ?_, rfl, rfl⟩
    refine put_effect ⟨h3, fun _ _ => rfl, fun _ hh => absurd rfl hh, ?_⟩
    intro o ho
    unfold Dirty at ho
    rw [h4] at ho
    exact Or.inl ho
  | none =>
    rw [hrd] at hr
    have hmiss : (p.caches (sh off)).pages.find off = none := by
      rcases hr with hr | hr
      · exact cap_zero_find hi hr off
      · exact hr
    simp only
    by_cases hv : p.versions off ≠ ver
    · rw [if_pos hv]
      have hrp := readPage_spec (ps := ps) h io off
      cases hrr : p.readPage sh ps io off with
      | ub => rw [hrr] at hrp; exact hrp
      | throws s =>
        rw [hrr] at hrp
        obtain ⟨r1, r2, r3, r4, r5, _⟩ := hrp
        exact ⟨r1, r2, r3, r4, r5⟩
      | ok s => rw [hrr] at hrp; exact hrp
    · rw [if_neg hv]
      have hb := hbuf (by omega) hmiss
      have hw := write_spec hi io (off := off) rfl buf false (fun _ => hb) (by intro hh; cases hh)
      cases hwr : (p.caches (sh off)).write io p.disk off buf false with
      | ub => rw [hwr] at hw; exact hw
      | throws s =>
        obtain ⟨c, d⟩ := s
        rw [hwr] at hw
        obtain ⟨w1, w2⟩ := hw
        exact ⟨rfl, put_inv h w1 (by rw [w2.cap]; exact h.cap _) (fun o ho => w2.frame o ho) (fun _ _ => rfl), put_effect w2, rfl, rfl⟩
      | ok s =>
        obtain ⟨c, d⟩ := s
        rw [hwr] at hw
        obtain ⟨w1, w2⟩ := hw
        rw [hb, upd_self] at w1
        exact ⟨by rw [hb], put_inv h w1 (by rw [w2.cap]; exact h.cap _) (fun o ho => w2.frame o ho) (fun _ _ => rfl), put_effect w2, rfl, rfl⟩

theorem open_inv (sh : Nat → Nat) (cap : Nat) (d : Disk) (fs : Nat) : GInv sh cap (PageIO.open' cap d fs) d := by
  refine ⟨?_, fun _ => rfl⟩
  intro s
  exact ⟨List.nodup_nil, List.nodup_nil, fun o => by simp [PageIO.open', PageMap.keys], Nat.zero_le _, (fun o ho => by cases ho),
    (fun o e he => by cases he), fun _ _ _ => rfl⟩

end Alaya.DiskPages
