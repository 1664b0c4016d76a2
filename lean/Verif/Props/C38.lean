import Verif.Lemmas.DiskLayout

/-! C38: the disk layout places records disjointly inside aligned pages. -/
namespace Alaya.DiskLayout
open Alaya.DiskSlots (Out)
open Alaya.Seq (memWrite slice memWrite_eq)

/-- The geometry fits 64 bits. -/
def Fits (dim deg : Nat) : Prop := 0 < dim ∧ dim * 4 + 4 + deg * 4 + 4095 < 2 ^ 64

/-- The page of `id` ends below 2^64. -/
def Geom.Addressable (g : Geom) (id : Nat) : Prop := 4096 + g.pageSize * (id / g.nps + 1) < 2 ^ 64

/-- The record of every addressable node lies completely inside its page; the page is sector aligned and starts after the
header; the record has room for the vector, the count and `max_degree` neighbours. -/
theorem C38_record_in_page {dim deg : Nat} (h : Fits dim deg) :
    ∃ g, compute dim deg = .ok g ∧ g.nodeLen = 4 * dim + 4 + 4 * deg ∧ 0 < g.pageSize ∧ g.pageSize % 4096 = 0 ∧
      ∀ id, g.Addressable id → g.offsetToNode id + g.nodeLen ≤ g.pageSize ∧ g.pageOffset id % 4096 = 0 ∧ 4096 ≤ g.pageOffset id ∧
        g.fileOffset id = g.pageOffset id + g.offsetToNode id ∧ g.pageOffset id + g.pageSize < 2 ^ 64 := by
  obtain ⟨g, e, hg⟩ := compute_good h.1 h.2
  have hpp : 0 < g.pageSize := by
    have h1 := slot_fits hg 0
    have h2 := hg.len
    omega
  refine ⟨g, e, by rw [hg.len]; omega, hpp, hg.aligned, ?_⟩
  intro id hid
  have hs := slot_fits hg id
  have ha := hg.aligned
  have hm : g.pageSize * (id / g.nps) % 4096 = 0 := by rw [Nat.mul_mod, ha, Nat.zero_mul, Nat.zero_mod]
  rw [hg.offset, Good.pageOff hid, hg.fileOff hid]
  unfold Geom.Addressable at hid
  rw [Nat.mul_add, Nat.mul_one] at hid
  exact ⟨hs, by omega, by omega, rfl, by omega⟩

/-- The records of two different nodes do not overlap in the file. -/
theorem C38_records_disjoint {dim deg : Nat} (h : Fits dim deg) :
    ∃ g, compute dim deg = .ok g ∧ ∀ i j, i ≠ j → g.Addressable i → g.Addressable j →
      g.fileOffset i + g.nodeLen ≤ g.fileOffset j ∨ g.fileOffset j + g.nodeLen ≤ g.fileOffset i := by
  obtain ⟨g, e, hg⟩ := compute_good h.1 h.2
  refine ⟨g, e, ?_⟩
  intro i j hij hi hj
  rw [hg.fileOff hi, hg.fileOff hj]
  rcases Nat.lt_or_gt_of_ne hij with hlt | hlt
  · exact Or.inl (file_disjoint hg hlt)
  · exact Or.inr (file_disjoint hg hlt)

theorem addressable_mono {g : Geom} {i j : Nat} (h : i ≤ j) (hj : g.Addressable j) : g.Addressable i := by
  unfold Geom.Addressable at *
  have h1 : i / g.nps ≤ j / g.nps := Nat.div_le_div_right h
  have h2 := Nat.mul_le_mul_left g.pageSize (show i / g.nps + 1 ≤ j / g.nps + 1 by omega)
  omega

theorem total_eq {g : Geom} {dim deg : Nat} (hg : Good g dim deg) {n : Nat} (hn : 0 < n) (ha : g.Addressable (n - 1)) (hw : n + g.nps < 2 ^ 64) :
    g.totalFileSize n = 4096 + g.pageSize * ((n - 1) / g.nps + 1) := by
  unfold Geom.totalFileSize sectorLen
  unfold Geom.Addressable at ha
  rw [hg.pages hn hw, U64_eq, Nat.mul_comm, Nat.mod_eq_of_lt ha]

/-- The file size covers the record of every node, by whole pages. -/
theorem C38_file_covers {dim deg n : Nat} (h : Fits dim deg) :
    ∃ g, compute dim deg = .ok g ∧ (0 < n → g.Addressable (n - 1) → n + g.nps < 2 ^ 64 →
      ∀ id, id < n → g.fileOffset id + g.nodeLen ≤ g.totalFileSize n ∧ g.pageOffset id + g.pageSize ≤ g.totalFileSize n) := by
  obtain ⟨g, e, hg⟩ := compute_good h.1 h.2
  refine ⟨g, e, ?_⟩
  intro hn ha hw id hid
  have hi := addressable_mono (show id ≤ n - 1 by omega) ha
  rw [total_eq hg hn ha hw, hg.fileOff hi, Good.pageOff hi]
  have hs := slot_fits hg id
  have hle : id / g.nps ≤ (n - 1) / g.nps := Nat.div_le_div_right (by omega)
  have h2 := Nat.mul_le_mul_left g.pageSize (show id / g.nps + 1 ≤ (n - 1) / g.nps + 1 by omega)
  rw [Nat.mul_add, Nat.mul_one] at h2
  exact ⟨by omega, by omega⟩

/-- Packing a record of at most `max_degree` neighbours into a page and viewing it gives back the vector and the neighbours, and
no byte outside of the record changes. -/
theorem C38_pack_view {dim deg : Nat} (h : Fits dim deg) (hd : deg < 2 ^ 32) (id : Nat) (page : Bytes) (coords nbrs : List (BitVec 32))
    (hc : coords.length = dim) (hn : nbrs.length ≤ deg) :
    ∃ g, compute dim deg = .ok g ∧ (page.length = g.pageSize →
      ∃ p, packNode page (g.offsetToNode id) coords nbrs dim = .ok p ∧ p.length = g.pageSize ∧
        viewCoords p (g.offsetToNode id) dim = .ok coords ∧ viewNbrs p (g.offsetToNode id) dim = .ok nbrs ∧
        ∀ o, o < g.offsetToNode id ∨ g.offsetToNode id + g.nodeLen ≤ o → p[o]? = page[o]?) := by
  obtain ⟨g, e, hg⟩ := compute_good h.1 h.2
  refine ⟨g, e, ?_⟩
  intro hl
  have hs := slot_fits hg id
  have hlen := hg.len
  have hf := hg.fit
  rw [hg.offset]
  obtain ⟨p, ep, lp, hp, kp⟩ := packNode_spec (page := page) (off := id % g.nps * g.nodeLen) (dim := dim) (coords := coords) (nbrs := nbrs)
    (by omega) (by omega) (by rw [hl]; omega)
  have htk : coords.take dim = coords := List.take_of_length_le (by omega)
  rw [htk] at hp
  obtain ⟨v1, _, v3⟩ := views_of_holds hp hc (by omega) (by omega)
  refine ⟨p, ep, by omega, v1, v3, ?_⟩
  intro o ho
  have hk := kp o 1 (by omega)
  unfold slice at hk
  have h1 : ∀ b : Bytes, ((b.drop o).take 1)[0]? = b[o]? := by
    intro b; rw [List.getElem?_take, if_pos (by omega), List.getElem?_drop]; rfl
  rw [← h1 p, ← h1 page, hk]

/-! ### The whole file -/

theorem slice_agree {a b : Bytes} {k o n : Nat} (h : a.take k = b.take k) (ho : o + n ≤ k) : slice a o n = slice b o n := by
  have key : ∀ x : Bytes, slice x o n = slice (x.take k) o n := by
    intro x
    unfold slice
    rw [List.drop_take, List.take_take, Nat.min_eq_left (by omega)]
  rw [key a, key b, h]

/-- Where the record of `j` starts. -/
def fo (g : Geom) (j : Nat) : Nat := 4096 + g.pageSize * (j / g.nps) + (j % g.nps) * g.nodeLen

theorem Holds.agree {a b : Bytes} {k off : Nat} {c nb : List (BitVec 32)} (h : Holds a off c nb) (hk : a.take k = b.take k)
    (ho : off + (c.length * 4 + 4 + nb.length * 4) ≤ k) : Holds b off c nb := by
  unfold Holds at *
  rw [← slice_agree hk ho, h]

theorem writeLoop_spec {g : Geom} {dim deg : Nat} (hg : Good g dim deg) (vectors : List (BitVec 32)) (G : List (List (BitVec 32))) (n : Nat)
    (hn : G.length = n) (hv : n * dim ≤ vectors.length) (hdeg : ∀ nb ∈ G, nb.length ≤ deg) :
    ∀ (rest : List (List (BitVec 32))) (nb : List (BitVec 32)) (id : Nat) (page out : Bytes), G.drop id = nb :: rest →
    out.length = 4096 + g.pageSize * (id / g.nps) → (id % g.nps ≠ 0 → page.length = g.pageSize) →
    (∀ j, j < id → Holds (if id % g.nps = 0 then out else out ++ page) (fo g j) ((vectors.drop (j * dim)).take dim) (G[j]?.getD [])) →
    ∃ file tail, writeLoop g vectors n (nb :: rest) id page out = .ok file ∧ file = out ++ tail ∧
      file.length = 4096 + g.pageSize * ((n - 1) / g.nps + 1) ∧
      ∀ j, j < n → Holds file (fo g j) ((vectors.drop (j * dim)).take dim) (G[j]?.getD []) := by
  intro rest
  induction rest with
  | nil => ?_
  | cons nb' rest ih => ?_
  all_goals
    intro nb id page out hdrop hout hpage hinv
    have hidlt : id < n := by
      have := congrArg List.length hdrop
      rw [List.length_drop, List.length_cons] at this
      omega
    have hnb : G[id]? = some nb := by
      have := congrArg (fun l => l[0]?) hdrop
      simp only [List.getElem?_drop, List.getElem?_cons_zero] at this
      exact this
    have hnbd : nb.length ≤ deg := hdeg nb (List.mem_of_getElem? hnb)
    have hvl : ∀ j, j < n → (vectors.drop (j * dim)).length ≥ dim := by
      intro j hj
      rw [List.length_drop]
      have := slot_disjoint dim j n hj
      omega
    have hs := slot_fits hg id
    have hlen := hg.len
    have hf := hg.fit
    obtain ⟨page0, hpg⟩ : ∃ page0, page0 = if id % g.nps = 0 then List.replicate g.pageSize (0 : UInt8) else page := ⟨_, rfl⟩
    have hl0 : page0.length = g.pageSize := by
      rw [hpg]
      split
      · rw [List.length_replicate]
      · exact hpage ‹_›
    obtain ⟨p, ep, lp, hp, kp⟩ := packNode_spec (page := page0) (off := id % g.nps * g.nodeLen) (dim := dim)
      (coords := vectors.drop (id * dim)) (nbrs := nb) (hvl id hidlt) (by omega) (by rw [hl0]; omega)
    have hmod : id % g.nps * g.nodeLen % U64 = id % g.nps * g.nodeLen := by
      have := hg.offset id
      unfold Geom.offsetToNode at this
      exact this
    have hrl : ∀ j, j < n → ((vectors.drop (j * dim)).take dim).length = dim := by
      intro j hj
      have := hvl j hj
      rw [List.length_take]; omega
    -- all records up to `id` are in `out ++ p`
    have hall : ∀ j, j < id + 1 → Holds (out ++ p) (fo g j) ((vectors.drop (j * dim)).take dim) (G[j]?.getD []) := by
      intro j hj
      by_cases hji : j = id
      · subst hji
        rw [hnb, Option.getD_some]
        unfold Holds fo at *
        rw [← hout, slice_append_right]
        exact hp
      · have hjid : j < id := by omega
        have hfd := file_disjoint hg hjid
        have hb : (G[j]?.getD []).length ≤ deg := by
          cases hgj : G[j]? with
          | none => simp
          | some x => exact hdeg x (List.mem_of_getElem? hgj)
        refine Holds.agree (a := out ++ page0) (k := out.length + id % g.nps * g.nodeLen) ?_ ?_ ?_
        · have := hinv j hjid
          by_cases h0 : id % g.nps = 0
          · rw [if_pos h0] at this
            refine Holds.agree this (k := out.length) (by simp) ?_
            rw [hrl j (by omega), hout]
            unfold fo
            rw [h0, Nat.zero_mul] at hfd
            omega
          · rw [if_neg h0] at this
            rw [hpg, if_neg h0]
            exact this
        · have hz := kp 0 (id % g.nps * g.nodeLen) (Or.inl (by omega))
          unfold slice at hz
          rw [List.drop_zero, List.drop_zero] at hz
          rw [List.take_append, List.take_append, Nat.add_sub_cancel_left, hz]
        · rw [hrl j (by omega), hout]
          unfold fo
          omega
    unfold writeLoop
    simp only [← hpg, hg.hdim, hg.hdeg]
    rw [if_neg (by omega), hmod, ep]
    simp only
  · -- the last node
    have hid : id = n - 1 := by
      have := congrArg List.length hdrop
      rw [List.length_drop, List.length_cons, List.length_nil] at this
      omega
    rw [if_pos (Or.inr hid)]
    refine ⟨out ++ p, p, rfl, rfl, ?_, fun j hj => hall j (by omega)⟩
    rw [List.length_append, hout, lp, hl0, hid, Nat.mul_add, Nat.mul_one]
    omega
  · have hidn : id + 1 < n := by
      have := congrArg List.length hdrop
      rw [List.length_drop, List.length_cons, List.length_cons] at this
      omega
    have hdrop' : G.drop (id + 1) = nb' :: rest := by
      rw [← List.drop_drop, hdrop]; rfl
    have hnp := hg.npsPos
    have hdm := Nat.div_add_mod id g.nps
    by_cases hlast : id % g.nps = g.nps - 1
    · rw [if_pos (Or.inl hlast)]
      have e1 : id + 1 = g.nps * (id / g.nps + 1) := by rw [Nat.mul_add, Nat.mul_one]; omega
      have hq : (id + 1) / g.nps = id / g.nps + 1 := by rw [e1, Nat.mul_div_cancel_left _ hnp]
      have hr : (id + 1) % g.nps = 0 := by rw [e1, Nat.mul_mod_right]
      obtain ⟨file, tail, a1, a2, a3, a4⟩ := ih nb' (id + 1) p (out ++ p) hdrop' (by
        rw [List.length_append, hout, lp, hl0, hq, Nat.mul_add, Nat.mul_one]; omega) (by intro h; exact absurd hr h) (by
        intro j hj
        rw [if_pos hr]
        exact hall j hj)
      exact ⟨file, p ++ tail, a1, by rw [a2, List.append_assoc], a3, a4⟩
    · rw [if_neg (by rintro (h | h) <;> omega)]
      have hlt : id % g.nps + 1 < g.nps := by have := Nat.mod_lt id hnp; omega
      have e1 : id + 1 = g.nps * (id / g.nps) + (id % g.nps + 1) := by omega
      have hq : (id + 1) / g.nps = id / g.nps := by
        rw [e1, Nat.mul_add_div hnp, Nat.div_eq_of_lt hlt, Nat.add_zero]
      have hr : (id + 1) % g.nps = id % g.nps + 1 := by
        rw [e1, Nat.mul_add_mod, Nat.mod_eq_of_lt hlt]
      obtain ⟨file, tail, a1, a2, a3, a4⟩ := ih nb' (id + 1) p out hdrop' (by rw [hq]; exact hout) (by intro _; rw [lp, hl0]) (by
        intro j hj
        rw [if_neg (by omega)]
        exact hall j hj)
      exact ⟨file, tail, a1, a2, a3, a4⟩

theorem header_fields (n dim medoid deg : Nat) (g : Geom) (tail : Bytes) (hn : n < 2 ^ 64) (hdim : dim < 2 ^ 64) (hmed : medoid < 2 ^ 32)
    (hdeg : deg < 2 ^ 32) (hnl : g.nodeLen < 2 ^ 64) (hnps : g.nps < 2 ^ 64) (htot : g.totalFileSize n < 2 ^ 64) :
    leNat ((header n dim medoid deg g ++ tail).take 8) = n ∧ leNat (((header n dim medoid deg g ++ tail).drop 8).take 8) = dim ∧
    leNat (((header n dim medoid deg g ++ tail).drop 16).take 4) = medoid ∧ leNat (((header n dim medoid deg g ++ tail).drop 20).take 4) = deg ∧
    leNat (((header n dim medoid deg g ++ tail).drop 24).take 8) = g.nodeLen ∧
    leNat (((header n dim medoid deg g ++ tail).drop 32).take 8) = g.nps ∧
    leNat (((header n dim medoid deg g ++ tail).drop 40).take 8) = g.totalFileSize n := by
  have dr : ∀ (w x k : Nat) (b : Bytes), (leBytes w x ++ b).drop (w + k) = b.drop k := by
    intro w x k b
    rw [← List.drop_drop, List.drop_append_of_le_length (by simp), List.drop_of_length_le (l := leBytes w x) (by simp), List.nil_append]
  have tk : ∀ (w x : Nat) (b : Bytes), (leBytes w x ++ b).take w = leBytes w x := by
    intro w x b; rw [List.take_append_of_le_length (by simp), List.take_of_length_le (by simp)]
  unfold header
  simp only [List.append_assoc]
  refine ⟨?_, ?_, ?_, ?_, ?_, ?_, ?_⟩
  · rw [tk, leNat_leBytes_of_lt (by omega)]
  · rw [dr 8 _ 0, List.drop_zero, tk, leNat_leBytes_of_lt (by omega)]
  · rw [dr 8 _ 8, dr 8 _ 0, List.drop_zero, tk, leNat_leBytes_of_lt (by omega)]
  · rw [dr 8 _ 12, dr 8 _ 4, dr 4 _ 0, List.drop_zero, tk, leNat_leBytes_of_lt (by omega)]
  · rw [dr 8 _ 16, dr 8 _ 8, dr 4 _ 4, dr 4 _ 0, List.drop_zero, tk, leNat_leBytes_of_lt (by omega)]
  · rw [dr 8 _ 24, dr 8 _ 16, dr 4 _ 12, dr 4 _ 8, dr 8 _ 0, List.drop_zero, tk, leNat_leBytes_of_lt (by omega)]
  · rw [dr 8 _ 32, dr 8 _ 24, dr 4 _ 20, dr 4 _ 16, dr 8 _ 8, dr 8 _ 0, List.drop_zero, tk, leNat_leBytes_of_lt (by omega)]

theorem header_length (n dim medoid deg : Nat) (g : Geom) : (header n dim medoid deg g).length = 4096 := by
  unfold header sectorLen
  simp only [List.length_append, leBytes_length, List.length_replicate]

/-- Writing a graph and reading it: the file is accepted by `read_disk_layout_header` with the parameters written, its size is
the announced one, and the page of every node shows the vector and the neighbours of the node. -/
theorem C38_write_read {n dim deg medoid : Nat} (h : Fits dim deg) (hd : deg < 2 ^ 32) (hn : 0 < n) (hn32 : n ≤ 2 ^ 32) (hmed : medoid < n)
    (vectors : List (BitVec 32)) (hv : n * dim ≤ vectors.length) (G : List (List (BitVec 32))) (hG : G.length = n)
    (hdeg : ∀ nb ∈ G, nb.length ≤ deg) :
    ∃ g, compute dim deg = .ok g ∧ (g.Addressable (n - 1) →
      ∃ file, writeLayout vectors G n dim deg medoid = .ok file ∧ file.length = g.totalFileSize n ∧
        readHeader file = .ok ⟨n, dim, medoid, deg, g.nodeLen, g.nps, g.totalFileSize n⟩ ∧
        ∀ id, id < n → viewCoords (g.page file id) (g.offsetToNode id) dim = .ok ((vectors.drop (id * dim)).take dim) ∧
          ∃ nb, G[id]? = some nb ∧ viewNbrs (g.page file id) (g.offsetToNode id) dim = .ok nb) := by
  obtain ⟨g, e, hg⟩ := compute_good h.1 h.2
  refine ⟨g, e, ?_⟩
  intro ha
  have hnps : g.nps ≤ 4096 := by
    rw [hg.nps]
    have := Nat.div_le_self 4096 (dim * 4 + 4 + deg * 4)
    omega
  have hw : n + g.nps < 2 ^ 64 := by omega
  have htot := total_eq hg hn ha hw
  have hlen := hg.len
  have hf := hg.fit
  obtain ⟨nb, rest, hcons⟩ : ∃ nb rest, G = nb :: rest := by
    cases G with
    | nil => simp at hG; omega
    | cons a b => exact ⟨a, b, rfl⟩
  obtain ⟨file, tail, e1, e2, e3, e4⟩ := writeLoop_spec hg vectors G n hG hv hdeg rest nb 0 (List.replicate g.pageSize 0) (header n dim medoid deg g)
    (by rw [List.drop_zero]; exact hcons) (by rw [header_length, Nat.zero_div, Nat.mul_zero]) (by intro _; rw [List.length_replicate])
    (by intro j hj; omega)
  have ha' : g.totalFileSize n < 2 ^ 64 := by rw [htot]; exact ha
  refine ⟨file, ?_, by rw [e3, htot], ?_, ?_⟩
  · unfold writeLayout
    have hp := h.1
    rw [if_neg (by omega), if_neg (by omega), if_neg (by simp [hG]), if_neg (by omega), e]
    simp only
    rw [← e1, ← hcons]
  · obtain ⟨f1, f2, f3, f4, f5, f6, f7⟩ := header_fields n dim medoid deg g tail (by omega) (by omega) (by omega) hd (by omega) (by omega) ha'
    rw [← e2] at f1 f2 f3 f4 f5 f6 f7
    unfold readHeader
    simp only [f1, f2, f3, f4, f5, f6, f7]
    rw [if_neg (by unfold sectorLen; rw [e3]; omega), if_neg (by have := h.1; omega), e]
    simp only
    rw [if_neg (by simp), if_neg (by simp), if_neg (by omega), if_neg (by simp), if_neg (by rw [e3, htot]; simp)]
  · intro id hid
    obtain ⟨nbi, hnbi⟩ : ∃ nb, G[id]? = some nb := ⟨G[id]'(by omega), List.getElem?_eq_getElem (by omega)⟩
    have hh := e4 id hid
    rw [hnbi, Option.getD_some] at hh
    have hi := addressable_mono (show id ≤ n - 1 by omega) ha
    have hs := slot_fits hg id
    have hnl := hdeg nbi (List.mem_of_getElem? hnbi)
    have hrl : ((vectors.drop (id * dim)).take dim).length = dim := by
      have := slot_disjoint dim id n hid
      rw [List.length_take, List.length_drop]; omega
    have hp : Holds (g.page file id) (g.offsetToNode id) ((vectors.drop (id * dim)).take dim) nbi := by
      unfold Holds Geom.page at *
      rw [slice_take (by rw [hrl, hg.offset]; omega), hg.offset, Good.pageOff hi]
      exact hh
    obtain ⟨v1, _, v3⟩ := views_of_holds hp hrl (by omega) (by omega)
    exact ⟨v1, nbi, hnbi, v3⟩

/-- The header check is not enough: a file announcing dimension 2^62 is accepted because `dim * 4` wraps to 0; its vectors
cannot be read from any page. -/
theorem C38_header_overflow_refuted :
    ∃ (file : Bytes) (hd : Header) (g : Geom), readHeader file = .ok hd ∧ compute hd.dim hd.deg = .ok g ∧
      ∀ id, viewCoords (g.page file id) (g.offsetToNode id) hd.dim = .ub := by
  obtain ⟨D, hD⟩ : ∃ D, D = 2 ^ 62 := ⟨_, rfl⟩
  have hc : compute D 0 = .ok ⟨D, 0, 4, 1024, 4096⟩ := by
    unfold compute
    rw [if_neg (by omega), U64_eq]
    simp only
    rw [show (D * 4 + 4 + 0 * 4) % 2 ^ 64 = 4 by omega, if_neg (by omega)]
    rw [show max 1 (sectorLen / 4) = 1024 from by decide]
    rfl
  have htot : Geom.totalFileSize ⟨D, 0, 4, 1024, 4096⟩ 1 = 8192 := by
    unfold Geom.totalFileSize Geom.numPages
    rw [if_neg (by decide), U64_eq]
    simp only [sectorLen]
  obtain ⟨f1, f2, f3, f4, f5, f6, f7⟩ := header_fields 1 D 0 0 ⟨D, 0, 4, 1024, 4096⟩ (List.replicate 4096 0) (by omega) (by omega) (by omega)
    (by omega) (by simp) (by simp) (by rw [htot]; omega)
  rw [htot] at f7
  simp only at f5 f6
  have hl : (header 1 D 0 0 ⟨D, 0, 4, 1024, 4096⟩ ++ List.replicate 4096 0).length = 8192 := by
    rw [List.length_append, header_length, List.length_replicate]
  refine ⟨header 1 D 0 0 ⟨D, 0, 4, 1024, 4096⟩ ++ List.replicate 4096 0, ⟨1, D, 0, 0, 4, 1024, 8192⟩, ⟨D, 0, 4, 1024, 4096⟩, ?_, hc, ?_⟩
  · unfold readHeader
    simp only [f1, f2, f3, f4, f5, f6, f7, hl]
    rw [if_neg (by decide), if_neg (by omega), hc]
    simp only [htot]
    rfl
  · intro id
    unfold viewCoords
    rw [if_pos]
    unfold Geom.page
    rw [List.length_take]
    simp only
    omega

/-- And dimension 2^62 - 1 with degree 0 divides by zero. -/
theorem C38_header_division_refuted :
    ∃ file : Bytes, readHeader file = .ub := by
  obtain ⟨D, hD⟩ : ∃ D, D = 2 ^ 62 - 1 := ⟨_, rfl⟩
  have hc : compute D 0 = .ub := by
    unfold compute
    rw [if_neg (by omega), U64_eq]
    simp only
    rw [if_pos (by omega)]
  obtain ⟨f1, f2, f3, f4, -, -, -⟩ := header_fields 1 D 0 0 ⟨0, 0, 0, 1, 0⟩ [] (by omega) (by omega) (by omega)
    (by omega) (by simp) (by simp) (by unfold Geom.totalFileSize Geom.numPages; rw [U64_eq]; exact Nat.mod_lt _ (by decide))
  refine ⟨header 1 D 0 0 ⟨0, 0, 0, 1, 0⟩ ++ [], ?_⟩
  unfold readHeader
  simp only [f1, f2, f3, f4]
  rw [if_neg (by rw [List.length_append, header_length]; decide), if_neg (by omega), hc]

/-- The hypotheses are met by a usual index: dimension 128, degree 64, four nodes. -/
example : Fits 128 64 ∧ ∃ g, compute 128 64 = .ok g ∧ g.nps = 5 ∧ g.pageSize = 4096 ∧ g.Addressable 1000000 := by
  refine ⟨⟨by decide, by decide⟩, ⟨128, 64, 772, 5, 4096⟩, ?_, rfl, rfl, ?_⟩
  · unfold compute
    rw [if_neg (by decide), U64_eq]
    rfl
  · unfold Geom.Addressable; decide

end Alaya.DiskLayout
