import Verif.Model.DiskNodes
import Verif.Lemmas.DiskLayout
import Verif.Lemmas.DiskPageIO
import Verif.Props.C38

namespace Alaya.DiskNodes
open Alaya.DiskLayout Alaya.DiskPages
open Alaya.DiskSlots (Out)
open Alaya.Seq (memWrite slice memWrite_eq)

/-! ### One page -/

theorem writeNode_spec {g : Geom} {dim deg : Nat} (hg : Good g dim deg) {page : Bytes} (hp : page.length = g.pageSize) (id : Nat)
    {coords nbrs : List (BitVec 32)} (hc : coords.length = dim) (hn : nbrs.length ≤ deg) :
    ∃ p, DiskLayout.writeNode g page id coords nbrs = .ok p ∧ p.length = g.pageSize ∧ Holds p (g.offsetToNode id) coords nbrs ∧
      ∀ o n, o + n ≤ g.offsetToNode id ∨ g.offsetToNode id + g.nodeLen ≤ o → slice p o n = slice page o n := by
  have hs := slot_fits hg id
  have hlen := hg.len
  have hf := hg.fit
  have ho := hg.offset id
  rw [← ho] at hs
  obtain ⟨p1, e1, l1, -, k1⟩ := memWrite_eq (data := page) (bs := List.replicate g.nodeLen 0) (off := g.offsetToNode id)
    (by rw [List.length_replicate]; omega)
  rw [List.length_replicate] at k1
  obtain ⟨p2, e2, l2, h2, k2⟩ := packNode_spec (page := p1) (off := g.offsetToNode id) (dim := dim) (coords := coords) (nbrs := nbrs)
    (by omega) (by omega) (by omega)
  unfold DiskLayout.writeNode
  rw [if_neg (by rw [hg.hdeg]; omega), e1, hg.hdim]
  simp only
  have htk : coords.take dim = coords := List.take_of_length_le (by omega)
  rw [htk] at h2
  refine ⟨p2, e2, by omega, h2, ?_⟩
  intro o n hon
  rw [k2 o n (by omega), k1 o n hon]

theorem writeNeighbors_spec {g : Geom} {dim deg : Nat} (hg : Good g dim deg) {page : Bytes} (hp : page.length = g.pageSize) (id : Nat)
    {coords nbrs old : List (BitVec 32)} (hc : coords.length = dim) (hold : Holds page (g.offsetToNode id) coords old) (hn : nbrs.length ≤ deg) :
    ∃ p, DiskLayout.writeNeighbors g page id nbrs = .ok p ∧ p.length = g.pageSize ∧ Holds p (g.offsetToNode id) coords nbrs ∧
      ∀ o n, o + n ≤ g.offsetToNode id ∨ g.offsetToNode id + g.nodeLen ≤ o → slice p o n = slice page o n := by
  have hs := slot_fits hg id
  have hlen := hg.len
  have hf := hg.fit
  have ho := hg.offset id
  rw [← ho] at hs
  have hw : dim * 4 % U64 = dim * 4 := by rw [U64_eq]; exact Nat.mod_eq_of_lt (by omega)
  obtain ⟨z, hz⟩ : ∃ z, z = g.nodeLen - dim * 4 := ⟨_, rfl⟩
  obtain ⟨off, hoff⟩ : ∃ off, off = g.offsetToNode id := ⟨_, rfl⟩
  rw [← hoff] at hs hold ⊢
  obtain ⟨p1, e1, l1, -, k1⟩ := memWrite_eq (data := page) (bs := List.replicate z 0) (off := off + dim * 4)
    (by rw [List.length_replicate]; omega)
  rw [List.length_replicate] at k1
  obtain ⟨p2, e2, l2, s2, k2⟩ := memWrite_eq (data := p1) (bs := leBytes 4 nbrs.length) (off := off + dim * 4) (by rw [leBytes_length, l1]; omega)
  rw [leBytes_length] at s2 k2
  have hl3 := le32s_length nbrs
  obtain ⟨p3, e3, l3, s3, k3⟩ := memWrite_eq (data := p2) (bs := le32s nbrs) (off := off + dim * 4 + 4) (by rw [hl3, l2, l1]; omega)
  rw [hl3] at s3 k3
  have hcs : slice page off (dim * 4) = le32s coords := by
    have h1 := hold
    unfold Holds recBytes at h1
    rw [hc, Nat.add_assoc, slice_add] at h1
    have hl : (slice page off (dim * 4)).length = (le32s coords).length := by
      rw [le32s_length, hc]
      unfold slice
      rw [List.length_take, List.length_drop]
      omega
    exact (List.append_inj h1 hl).1
  unfold DiskLayout.writeNeighbors
  rw [if_neg (by rw [hg.hdeg]; omega), hg.hdim, ← hoff, hw, ← hz, e1]
  simp only
  rw [e2]
  simp only
  by_cases hpos : 0 < nbrs.length
  · rw [if_pos hpos, e3]
    refine ⟨p3, rfl, by omega, ?_, ?_⟩
    · unfold Holds recBytes
      rw [hc, slice_add, slice_add, ← Nat.add_assoc, s3, k3 _ _ (Or.inl (by omega)), k3 _ _ (Or.inl (by omega)), s2,
        k2 _ _ (Or.inl (by omega)), k1 _ _ (Or.inl (by omega)), hcs, List.append_assoc]
    · intro o n hon
      rw [k3 o n (by omega), k2 o n (by omega), k1 o n (by omega)]
  · rw [if_neg hpos]
    have hz' : nbrs = [] := List.eq_nil_of_length_eq_zero (by omega)
    refine ⟨p2, rfl, by omega, ?_, ?_⟩
    · unfold Holds recBytes
      subst hz'
      have hz0 : slice p2 (off + (dim * 4 + 4)) 0 = [] := by unfold slice; rw [List.take_zero]
      rw [hc, slice_add, slice_add, s2, k2 _ _ (Or.inl (by omega)), k1 _ _ (Or.inl (by omega)), hcs, List.append_assoc]
      show _ ++ (_ ++ slice p2 (off + (dim * 4 + 4)) 0) = _
      rw [hz0]
      rfl
    · intro o n hon
      rw [k2 o n (by omega), k1 o n (by omega)]

theorem viewRec_of_holds {g : Geom} {dim deg : Nat} (hg : Good g dim deg) (hd32 : deg < 2 ^ 32) {page : Bytes} {id : Nat} {r : Rec}
    (h : Holds page (g.offsetToNode id) r.1 r.2) (hc : r.1.length = dim) (hn : r.2.length ≤ deg) : viewRec g page id = .ok r := by
  have hf := hg.fit
  obtain ⟨v1, _, v3⟩ := views_of_holds h hc (by omega) (by omega)
  unfold viewRec
  rw [hg.hdim, v1]
  simp only
  rw [v3]

theorem pageSize_pos {g : Geom} {dim deg : Nat} (hg : Good g dim deg) : 0 < g.pageSize := by
  have h1 := slot_fits hg 0
  have h2 := hg.len
  omega

/-- Two nodes in the same page have disjoint slots. -/
theorem slots_disjoint {g : Geom} {dim deg : Nat} (hg : Good g dim deg) {i j : Nat} (hij : i ≠ j) (hi : g.Addressable i) (hj : g.Addressable j)
    (hp : g.pageOffset i = g.pageOffset j) :
    g.offsetToNode i + g.nodeLen ≤ g.offsetToNode j ∨ g.offsetToNode j + g.nodeLen ≤ g.offsetToNode i := by
  rw [Good.pageOff hi, Good.pageOff hj] at hp
  have hq : i / g.nps = j / g.nps := by
    have : g.pageSize * (i / g.nps) = g.pageSize * (j / g.nps) := by omega
    exact Nat.eq_of_mul_eq_mul_left (pageSize_pos hg) this
  rw [hg.offset, hg.offset]
  have hm : i % g.nps ≠ j % g.nps := by
    intro hm
    have h1 := Nat.div_add_mod i g.nps
    have h2 := Nat.div_add_mod j g.nps
    rw [hq, hm] at h1
    omega
  rcases Nat.lt_or_gt_of_ne hm with h | h
  · exact Or.inl (slot_disjoint _ _ _ h)
  · exact Or.inr (slot_disjoint _ _ _ h)

/-! ### All pages -/

/-- The pages of `latest` hold the records `m`. -/
structure RecInv (g : Geom) (dim deg : Nat) (latest : Disk) (m : Nat → Rec) : Prop where
  len : ∀ id, g.Addressable id → (latest (g.pageOffset id)).length = g.pageSize
  holds : ∀ id, g.Addressable id → Holds (latest (g.pageOffset id)) (g.offsetToNode id) (m id).1 (m id).2
  hdim : ∀ id, g.Addressable id → (m id).1.length = dim
  hdeg : ∀ id, g.Addressable id → (m id).2.length ≤ deg

/-- The records after a write of one of them. -/
def updRec (m : Nat → Rec) (id : Nat) (r : Rec) : Nat → Rec := fun x => if x = id then r else m x

/-- A page that differs only in the slot of `id` holds the same other records. -/
theorem holds_other {g : Geom} {dim deg : Nat} (hg : Good g dim deg) {a b : Bytes} {i j : Nat} {r : Rec} (hij : i ≠ j) (hi : g.Addressable i)
    (hj : g.Addressable j) (hp : g.pageOffset i = g.pageOffset j) (hc : r.1.length = dim) (hn : r.2.length ≤ deg)
    (hfr : ∀ o n, o + n ≤ g.offsetToNode i ∨ g.offsetToNode i + g.nodeLen ≤ o → slice b o n = slice a o n)
    (h : Holds a (g.offsetToNode j) r.1 r.2) : Holds b (g.offsetToNode j) r.1 r.2 := by
  have hd := slots_disjoint hg hij hi hj hp
  have hl := hg.len
  unfold Holds at *
  rw [hfr _ _ (by omega), h]

theorem recInv_upd {g : Geom} {dim deg : Nat} (hg : Good g dim deg) {latest : Disk} {m : Nat → Rec} (h : RecInv g dim deg latest m) {id : Nat}
    (hid : g.Addressable id) {r : Rec} (hc : r.1.length = dim) (hn : r.2.length ≤ deg) {page : Bytes} (hl : page.length = g.pageSize)
    (hh : Holds page (g.offsetToNode id) r.1 r.2)
    (hfr : ∀ o n, o + n ≤ g.offsetToNode id ∨ g.offsetToNode id + g.nodeLen ≤ o → slice page o n = slice (latest (g.pageOffset id)) o n) :
    RecInv g dim deg (upd latest (g.pageOffset id) page) (updRec m id r) := by
  refine ⟨?_, ?_, ?_, ?_⟩
  · intro x hx
    unfold upd
    split
    · exact hl
    · exact h.len x hx
  · intro x hx
    unfold upd updRec
    by_cases hxi : x = id
    · subst hxi
      simp only [if_true]
      exact hh
    · rw [if_neg hxi]
      by_cases hpo : g.pageOffset x = g.pageOffset id
      · rw [if_pos hpo]
        refine holds_other hg (fun e => hxi e.symm) hid hx hpo.symm (h.hdim x hx) (h.hdeg x hx) hfr ?_
        rw [← hpo]; exact h.holds x hx
      · rw [if_neg hpo]
        exact h.holds x hx
  · intro x hx
    unfold updRec
    split
    · exact hc
    · exact h.hdim x hx
  · intro x hx
    unfold updRec
    split
    · exact hn
    · exact h.hdeg x hx

/-! ### What reaches the device when device writes do not fail -/

theorem write_val {c : Cache} {d latest : Disk} {K : Nat → Prop} (h : CInv c d latest K) {io : Io} (hio : ∀ o, io o = none) {off : Nat} {b : Bytes}
    {dirty : Bool} {s : Cache × Disk} (e : c.write io d off b dirty = .ok s) (o : Nat) : s.2 o = d o ∨ s.2 o = latest o := by
  unfold Cache.write at e
  by_cases h0 : c.cap = 0
  · rw [if_pos h0] at e
    injection e with e; subst e; exact Or.inl rfl
  · rw [if_neg h0] at e
    cases hf : c.pages.find off with
    | some y => rw [hf] at e; injection e with e; subst e; exact Or.inl rfl
    | none =>
      rw [hf] at e
      simp only at e
      split at e
      · rw [evictExcess_id io _ d h.size] at e
        simp only at e
        cases hg : c.lru.getLast? with
        | none => rw [hg] at e; cases e
        | some v =>
          rw [hg] at e
          simp only at e
          cases hv : c.pages.find v with
          | none => rw [hv] at e; injection e with e; subst e; exact Or.inl rfl
          | some y =>
            rw [hv] at e
            simp only [pwrite, hio] at e
            split at e
            · injection e with e; subst e
              simp only
              by_cases hov : o = v
              · rw [if_pos hov, hov]
                exact Or.inr (h.entry v y hv).1
              · rw [if_neg hov]; exact Or.inl rfl
            · injection e with e; subst e; exact Or.inl rfl
      · injection e with e; subst e; exact Or.inl rfl

theorem write_ok {c : Cache} {d latest : Disk} {K : Nat → Prop} (h : CInv c d latest K) {io : Io} (hio : ∀ o, io o = none) (off : Nat) (b : Bytes)
    (dirty : Bool) (s : Cache × Disk) : c.write io d off b dirty ≠ .throws s := by
  intro e
  unfold Cache.write at e
  by_cases h0 : c.cap = 0
  · rw [if_pos h0] at e; cases e
  · rw [if_neg h0] at e
    cases hf : c.pages.find off with
    | some y => rw [hf] at e; cases e
    | none =>
      rw [hf] at e
      simp only at e
      split at e
      · rw [evictExcess_id io _ d h.size] at e
        simp only at e
        cases hg : c.lru.getLast? with
        | none => rw [hg] at e; cases e
        | some v =>
          rw [hg] at e
          simp only at e
          cases hv : c.pages.find v with
          | none => rw [hv] at e; cases e
          | some y =>
            rw [hv] at e
            simp only [pwrite, hio] at e
            split at e <;> cases e
      · cases e

theorem readPage_val {sh : Nat → Nat} {cap ps : Nat} {p p' : PageIO} {latest : Disk} (h : GInv sh cap p latest) {io : Io} (hio : ∀ o, io o = none)
    {off : Nat} {b : Option Bytes} (e : p.readPage sh ps io off = .ok (b, p') ∨ p.readPage sh ps io off = .throws (b, p')) (o : Nat) :
    p'.disk o = p.disk o ∨ p'.disk o = latest o := by
  unfold PageIO.readPage at e
  simp only at e
  have hi := h.shard (sh off)
  cases hrd : (p.caches (sh off)).read off with
  | some x =>
    rw [hrd] at e
    rcases e with e | e
    · injection e with e; injection e with _ e; subst e; exact Or.inl rfl
    · cases e
  | none =>
    rw [hrd] at e
    simp only at e
    by_cases hfs : p.fileSize < off + ps
    · rw [if_pos hfs] at e
      rcases e with e | e
      · cases e
      · injection e with e; injection e with _ e; subst e; exact Or.inl rfl
    · rw [if_neg hfs] at e
      cases hwr : (p.caches (sh off)).write io p.disk off (p.disk off) false with
      | ub => rw [hwr] at e; rcases e with e | e <;> cases e
      | throws s => exact absurd hwr (write_ok hi hio _ _ _ _)
      | ok s =>
        rw [hwr] at e
        have hv := write_val hi hio hwr o
        rcases e with e | e
        · injection e with e; injection e with _ e; subst e; exact hv
        · cases e

theorem fill_val {sh : Nat → Nat} {cap ps : Nat} {p p' : PageIO} {latest : Disk} (h : GInv sh cap p latest) {io : Io} (hio : ∀ o, io o = none)
    {off : Nat} {buf : Bytes} {ver : Nat} {b : Option Bytes}
    (e : p.fill sh ps io off buf ver = .ok (b, p') ∨ p.fill sh ps io off buf ver = .throws (b, p')) (o : Nat) :
    p'.disk o = p.disk o ∨ p'.disk o = latest o := by
  unfold PageIO.fill at e
  simp only at e
  have hi := h.shard (sh off)
  cases hrd : (p.caches (sh off)).read off with
  | some x =>
    rw [hrd] at e
    rcases e with e | e
    · injection e with e; injection e with _ e; subst e; exact Or.inl rfl
    · cases e
  | none =>
    rw [hrd] at e
    simp only at e
    by_cases hv : p.versions off ≠ ver
    · rw [if_pos hv] at e
      exact readPage_val h hio e o
    · rw [if_neg hv] at e
      cases hwr : (p.caches (sh off)).write io p.disk off buf false with
      | ub => rw [hwr] at e; rcases e with e | e <;> cases e
      | throws s => exact absurd hwr (write_ok hi hio _ _ _ _)
      | ok s =>
        rw [hwr] at e
        have hv := write_val hi hio hwr o
        rcases e with e | e
        · injection e with e; injection e with _ e; subst e; exact hv
        · cases e

theorem writePage_val {sh : Nat → Nat} {cap : Nat} {p : PageIO} {latest : Disk} (h : GInv sh cap p latest) {io : Io} (hio : ∀ o, io o = none)
    (off : Nat) (b : Bytes) : ∃ p', p.writePage sh io off b = .ok p' ∧
      ∀ o, p'.disk o = p.disk o ∨ p'.disk o = latest o ∨ (o = off ∧ p'.disk o = b) := by
  have hs := writePage_spec h io (fun _ => hio) off b
  unfold PageIO.writePage at hs ⊢
  simp only at hs ⊢
  have hi := h.shard (sh off)
  by_cases h0 : (p.caches (sh off)).cap = 0
  · rw [if_pos h0]
    unfold pwrite
    rw [hio off]
    refine ⟨_, rfl, ?_⟩
    intro o
    simp only
    by_cases ho : o = off
    · rw [if_pos ho]; exact Or.inr (Or.inr ⟨ho, rfl⟩)
    · rw [if_neg ho]; exact Or.inl rfl
  · rw [if_neg h0] at hs ⊢
    cases hwr : (p.caches (sh off)).write io p.disk off b true with
    | ub => rw [hwr] at hs; exact hs.elim
    | throws s => exact absurd hwr (write_ok hi hio _ _ _ _)
    | ok s =>
      refine ⟨_, rfl, ?_⟩
      intro o
      rcases write_val hi hio hwr o with hv | hv
      · exact Or.inl hv
      · exact Or.inr (Or.inl hv)

/-! ### Cached pages lie inside the file -/

/-- Every cached page satisfies `F`. -/
def KeyIn (p : PageIO) (F : Nat → Prop) : Prop := ∀ s o, o ∈ (p.caches s).pages.keys → F o

theorem KeyIn.mono {p : PageIO} {F G : Nat → Prop} (h : KeyIn p F) (hi : ∀ o, F o → G o) : KeyIn p G := fun s o ho => hi o (h s o ho)

theorem KeyIn.put {p : PageIO} {F : Nat → Prop} (h : KeyIn p F) {s : Nat} {c : Cache} {d : Disk} (hc : ∀ o ∈ c.pages.keys, F o) :
    KeyIn (p.put s c d) F := by
  intro x o ho
  unfold PageIO.put at ho
  simp only at ho
  by_cases hx : x = s
  · rw [if_pos hx] at ho; exact hc o ho
  · rw [if_neg hx] at ho; exact h x o ho

theorem write_keys {c : Cache} {d latest : Disk} {K : Nat → Prop} (h : CInv c d latest K) {io : Io} {off : Nat} {b : Bytes} {dirty : Bool}
    {s : Cache × Disk} (e : c.write io d off b dirty = .ok s ∨ c.write io d off b dirty = .throws s) :
    ∀ o ∈ s.1.pages.keys, o = off ∨ o ∈ c.pages.keys := by
  unfold Cache.write at e
  by_cases h0 : c.cap = 0
  · rw [if_pos h0] at e
    rcases e with e | e
    · injection e with e; subst e; exact fun o ho => Or.inr ho
    · cases e
  · rw [if_neg h0] at e
    cases hf : c.pages.find off with
    | some y =>
      rw [hf] at e
      rcases e with e | e
      · injection e with e; subst e
        intro o ho
        simp only [keys_update] at ho
        exact Or.inr ho
      · cases e
    | none =>
      rw [hf] at e
      simp only at e
      split at e
      · rw [evictExcess_id io _ d h.size] at e
        simp only at e
        cases hg : c.lru.getLast? with
        | none => rw [hg] at e; rcases e with e | e <;> cases e
        | some v =>
          rw [hg] at e
          simp only at e
          cases hv : c.pages.find v with
          | none =>
            rw [hv] at e
            rcases e with e | e
            · injection e with e; subst e
              intro o ho
              exact List.mem_cons.1 ho
            · cases e
          | some y =>
            rw [hv] at e
            simp only at e
            have hkey : ∀ o ∈ PageMap.keys ((off, (⟨b, dirty⟩ : Entry)) :: c.pages.remove v), o = off ∨ o ∈ c.pages.keys := by
              intro o ho
              rcases List.mem_cons.1 ho with ho | ho
              · exact Or.inl ho
              · change o ∈ (c.pages.remove v).keys at ho
                rw [keys_remove] at ho
                exact Or.inr (List.mem_filter.1 ho).1
            split at e
            · split at e
              · rcases e with e | e
                · injection e with e; subst e; exact hkey
                · cases e
              · rcases e with e | e
                · cases e
                · injection e with e; subst e; exact fun o ho => Or.inr ho
            · rcases e with e | e
              · injection e with e; subst e; exact hkey
              · cases e
      · rcases e with e | e
        · injection e with e; subst e
          intro o ho
          exact List.mem_cons.1 ho
        · cases e

theorem read_keys {sh : Nat → Nat} {cap : Nat} {p : PageIO} {latest : Disk} (h : GInv sh cap p latest) {F : Nat → Prop} (hk : KeyIn p F) {off : Nat}
    {b : Bytes} {c : Cache} (e : (p.caches (sh off)).read off = some (b, c)) : KeyIn (p.put (sh off) c p.disk) F ∧ F off := by
  have hr := read_spec (h.shard (sh off)) off
  rw [e] at hr
  obtain ⟨-, -, -, h4, h5⟩ := hr
  refine ⟨hk.put (fun o ho => hk (sh off) o (by rw [← h4]; exact ho)), hk (sh off) off ?_⟩
  unfold Cache.read at e
  rw [if_neg (by omega)] at e
  cases hf : (p.caches (sh off)).pages.find off with
  | none => rw [hf] at e; cases e
  | some y => exact find_some_mem hf

theorem readPage_keys {sh : Nat → Nat} {cap ps : Nat} {p p' : PageIO} {latest : Disk} (h : GInv sh cap p latest) {F : Nat → Prop} (hk : KeyIn p F)
    {io : Io} {off : Nat} (hF : off + ps ≤ p.fileSize → F off) {b : Option Bytes}
    (e : p.readPage sh ps io off = .ok (b, p') ∨ p.readPage sh ps io off = .throws (b, p')) :
    KeyIn p' F ∧ (p.readPage sh ps io off = .ok (b, p') → F off) := by
  unfold PageIO.readPage at e ⊢
  simp only at e ⊢
  cases hrd : (p.caches (sh off)).read off with
  | some x =>
    obtain ⟨bb, c⟩ := x
    rw [hrd] at e
    have := read_keys h hk hrd
    rcases e with e | e
    · injection e with e; injection e with _ e; subst e; exact ⟨this.1, fun _ => this.2⟩
    · cases e
  | none =>
    rw [hrd] at e
    simp only at e ⊢
    by_cases hfs : p.fileSize < off + ps
    · rw [if_pos hfs] at e ⊢
      rcases e with e | e
      · cases e
      · injection e with e; injection e with _ e; subst e; exact ⟨hk, fun hh => by cases hh⟩
    · rw [if_neg hfs] at e
      have hoff := hF (by omega)
      cases hwr : (p.caches (sh off)).write io p.disk off (p.disk off) false with
      | ub => rw [hwr] at e; rcases e with e | e <;> cases e
      | throws s =>
        rw [hwr] at e
        have hw := write_keys (h.shard (sh off)) (Or.inr hwr)
        rcases e with e | e
        · cases e
        · injection e with e; injection e with _ e; subst e
          refine ⟨hk.put (fun o ho => ?_), fun _ => hoff⟩
          rcases hw o ho with rfl | hh
          · exact hoff
          · exact hk _ o hh
      | ok s =>
        rw [hwr] at e
        have hw := write_keys (h.shard (sh off)) (Or.inl hwr)
        rcases e with e | e
        · injection e with e; injection e with _ e; subst e
          refine ⟨hk.put (fun o ho => ?_), fun _ => hoff⟩
          rcases hw o ho with rfl | hh
          · exact hoff
          · exact hk _ o hh
        · cases e

theorem writePage_keys {sh : Nat → Nat} {cap : Nat} {p p' : PageIO} {latest : Disk} (h : GInv sh cap p latest) {F : Nat → Prop} (hk : KeyIn p F)
    {io : Io} {off : Nat} (hF : F off) {b : Bytes} (e : p.writePage sh io off b = .ok p' ∨ p.writePage sh io off b = .throws p') : KeyIn p' F := by
  unfold PageIO.writePage at e
  simp only at e
  by_cases h0 : (p.caches (sh off)).cap = 0
  · rw [if_pos h0] at e
    split at e
    · rcases e with e | e
      · injection e with e; subst e; exact hk
      · cases e
    · rcases e with e | e
      · cases e
      · injection e with e; subst e; exact hk
  · rw [if_neg h0] at e
    cases hwr : (p.caches (sh off)).write io p.disk off b true with
    | ub => rw [hwr] at e; rcases e with e | e <;> cases e
    | throws s =>
      rw [hwr] at e
      have hw := write_keys (h.shard (sh off)) (Or.inr hwr)
      rcases e with e | e
      · cases e
      · injection e with e; subst e
        refine hk.put (fun o ho => ?_)
        rcases hw o ho with rfl | hh
        · exact hF
        · exact hk _ o hh
    | ok s =>
      rw [hwr] at e
      have hw := write_keys (h.shard (sh off)) (Or.inl hwr)
      rcases e with e | e
      · injection e with e; subst e
        refine hk.put (s := sh off) (c := s.1) (d := s.2) (fun o ho => ?_)
        rcases hw o ho with rfl | hh
        · exact hF
        · exact hk _ o hh
      · cases e

theorem peek_keys {sh : Nat → Nat} {cap : Nat} {p p' : PageIO} {latest : Disk} (h : GInv sh cap p latest) {F : Nat → Prop} (hk : KeyIn p F) {off : Nat}
    {b : Bytes} (e : p.peek sh off = .inl (b, p')) : KeyIn p' F ∧ F off := by
  unfold PageIO.peek at e
  cases hrd : (p.caches (sh off)).read off with
  | some x =>
    obtain ⟨bb, c⟩ := x
    rw [hrd] at e
    simp only [Sum.inl.injEq, Prod.mk.injEq] at e
    obtain ⟨-, rfl⟩ := e
    exact read_keys h hk hrd
  | none => rw [hrd] at e; cases e

theorem fill_keys {sh : Nat → Nat} {cap ps : Nat} {p p' : PageIO} {latest : Disk} (h : GInv sh cap p latest) {F : Nat → Prop} (hk : KeyIn p F)
    {io : Io} {off : Nat} (hF : F off) {buf : Bytes} {ver : Nat} {b : Option Bytes}
    (e : p.fill sh ps io off buf ver = .ok (b, p') ∨ p.fill sh ps io off buf ver = .throws (b, p')) : KeyIn p' F := by
  unfold PageIO.fill at e
  simp only at e
  cases hrd : (p.caches (sh off)).read off with
  | some x =>
    obtain ⟨bb, c⟩ := x
    rw [hrd] at e
    have := read_keys h hk hrd
    rcases e with e | e
    · injection e with e; injection e with _ e; subst e; exact this.1
    · cases e
  | none =>
    rw [hrd] at e
    simp only at e
    by_cases hv : p.versions off ≠ ver
    · rw [if_pos hv] at e
      exact (readPage_keys h hk (fun _ => hF) e).1
    · rw [if_neg hv] at e
      cases hwr : (p.caches (sh off)).write io p.disk off buf false with
      | ub => rw [hwr] at e; rcases e with e | e <;> cases e
      | throws s =>
        rw [hwr] at e
        have hw := write_keys (h.shard (sh off)) (Or.inr hwr)
        rcases e with e | e
        · cases e
        · injection e with e; injection e with _ e; subst e
          refine hk.put (fun o ho => ?_)
          rcases hw o ho with rfl | hh
          · exact hF
          · exact hk _ o hh
      | ok s =>
        rw [hwr] at e
        have hw := write_keys (h.shard (sh off)) (Or.inl hwr)
        rcases e with e | e
        · injection e with e; injection e with _ e; subst e
          refine hk.put (fun o ho => ?_)
          rcases hw o ho with rfl | hh
          · exact hF
          · exact hk _ o hh
        · cases e

theorem flushDirty_keys (io : Io) : ∀ (order : List Nat) (c : Cache) (d : Disk) (s : Cache × Disk),
    (flushDirty io order c d = .ok s ∨ flushDirty io order c d = .throws s) → s.1.pages.keys = c.pages.keys
  | [], c, d, s, e => by
    rcases e with e | e
    · injection e with e; subst e; rfl
    · cases e
  | off :: rest, c, d, s, e => by
    unfold flushDirty at e
    cases hf : c.pages.find off with
    | none => rw [hf] at e; exact flushDirty_keys io rest c d s e
    | some y =>
      rw [hf] at e
      simp only at e
      split at e
      · split at e
        · rw [flushDirty_keys io rest _ _ s e]
          exact keys_update _ _ _
        · rcases e with e | e
          · cases e
          · injection e with e; subst e; rfl
      · exact flushDirty_keys io rest c d s e

theorem flush_keys (io : Io) {F : Nat → Prop} : ∀ (orders : List (Nat × List Nat)) (p p' : PageIO), KeyIn p F →
    (PageIO.flush io orders p = .ok p' ∨ PageIO.flush io orders p = .throws p') → KeyIn p' F
  | [], p, p', h, e => by
    rcases e with e | e
    · injection e with e; subst e; exact h
    · cases e
  | (s, order) :: rest, p, p', h, e => by
    unfold PageIO.flush at e
    cases hf : flushDirty io order (p.caches s) p.disk with
    | ub => rw [hf] at e; rcases e with e | e <;> cases e
    | throws x =>
      rw [hf] at e
      have hk := flushDirty_keys io order _ _ x (Or.inr hf)
      rcases e with e | e
      · cases e
      · injection e with e; subst e
        exact h.put (fun o ho => h s o (by rw [← hk]; exact ho))
    | ok x =>
      rw [hf] at e
      have hk := flushDirty_keys io order _ _ x (Or.inl hf)
      exact flush_keys io rest _ p' (h.put (fun o ho => h s o (by rw [← hk]; exact ho))) e

/-! ### Flushing a device that does not fail -/

theorem flushDirty_val {latest : Disk} {K : Nat → Prop} {io : Io} (hio : ∀ o, io o = none) : ∀ (order : List Nat) {c : Cache} {d : Disk}
    (_ : CInv c d latest K) (s : Cache × Disk), flushDirty io order c d = .ok s → ∀ o, s.2 o = d o ∨ s.2 o = latest o
  | [], c, d, _, s, e, o => by injection e with e; subst e; exact Or.inl rfl
  | off :: rest, c, d, h, s, e, o => by
    have hone := flushDirty_spec io [off] h
    unfold flushDirty at e hone
    cases hf : c.pages.find off with
    | none => rw [hf] at e; exact flushDirty_val hio rest h s e o
    | some y =>
      rw [hf] at e hone
      simp only [pwrite, hio] at e hone
      by_cases hd : y.dirty = true
      · rw [if_pos hd] at e hone
        simp only [flushDirty] at hone
        rcases flushDirty_val hio rest hone.1 s e o with hh | hh
        · rw [hh]
          by_cases hoo : o = off
          · rw [if_pos hoo, hoo]; exact Or.inr (h.entry off y hf).1
          · rw [if_neg hoo]; exact Or.inl rfl
        · exact Or.inr hh
      · rw [if_neg hd] at e
        exact flushDirty_val hio rest h s e o

end Alaya.DiskNodes
