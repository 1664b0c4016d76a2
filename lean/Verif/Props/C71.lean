import Verif.Props.C69
import Verif.Lemmas.IndexFile

/-! C71: saving and loading an in-memory index. -/
namespace Alaya.IndexFile
open Alaya.MemSearch Alaya.GraphUpdate Alaya.GraphUpdate.Spec Alaya.Spec Alaya.Seq

/-- A slot storage after some history of calls since `init(item_size, capacity, fill)`. -/
def Built (isz cap : Nat) (fill : UInt8) (s : Storage) : Prop :=
  InitOk isz cap 6 ∧ ∃ ops rets, (∀ op ∈ ops, OpIn cap isz op) ∧ (Seq.init isz cap fill (2 ^ 6)).run ops = some (s, rets)

theorem Built.reload {isz cap : Nat} {fill : UInt8} {s : Storage} (h : Built isz cap fill s) (junk : List (BitVec 8)) (rest : Bytes) :
    s.cap = cap ∧ s.pos ≤ cap ∧ ∃ s', Seq.load junk (s.save ++ rest) = some (s', rest) ∧ s'.cap = cap ∧ s'.pos = s.pos ∧
      ∀ i, i < cap → s'.isValid i = s.isValid i ∧ s'.read i = s.read i := by
  obtain ⟨hi, ops, rets, hops, e⟩ := h
  obtain ⟨s1, r1, s', e1, hl, hc, hp, _, _, hs, _⟩ := C21_save_load isz cap 6 fill hi ops hops junk rest
  rw [e] at e1
  cases e1
  obtain ⟨s2, e2, r⟩ := (Rep.init (cap := cap) fill hi.1 hi.2.1 hi.2.2).run ops hops
  rw [e] at e2
  cases e2
  exact ⟨r.hcap, by rw [r.pos]; exact r.le, s', hl, hc, hp, hs⟩

/-- What an index must satisfy: its storages come from the calls of the API, and its numbers fit the types of the members. -/
structure IndexOk (w : Nat) (x : Index) : Prop where
  ids : w = 4 ∨ w = 8 ∧ x.graph.overlay = none
  rows : Built (x.graph.maxNbrs * w) x.graph.maxNodes 255 x.graph.store
  vectors : Built x.space.dataSize x.space.capacity 0 x.space.store
  eps : x.graph.eps.length < 2 ^ 31 ∧ ∀ v ∈ x.graph.eps, v < 256 ^ w
  nodes : x.graph.maxNodes < 256 ^ w ∧ x.graph.maxNbrs < 2 ^ 32
  overlay : ∀ o, x.graph.overlay = some o → OverOk o
  sizes : x.space.metric < 2 ^ 32 ∧ x.space.dataSize < 2 ^ 32 ∧ x.space.dim < 2 ^ 32
  counts : x.space.itemCnt < 256 ^ w ∧ x.space.deleteCnt < 256 ^ w ∧ x.space.capacity < 256 ^ w
  config : ∀ c, x.space.config = some c → ConfigOk c

/-- The part of it about the graph. -/
structure GraphFileOk (w : Nat) (g : GraphS) : Prop where
  ids : w = 4 ∨ w = 8 ∧ g.overlay = none
  rows : Built (g.maxNbrs * w) g.maxNodes 255 g.store
  eps : g.eps.length < 2 ^ 31 ∧ ∀ v ∈ g.eps, v < 256 ^ w
  nodes : g.maxNodes < 256 ^ w ∧ g.maxNbrs < 2 ^ 32
  overlay : ∀ o, g.overlay = some o → OverOk o

/-- The part of it about the space. -/
structure SpaceFileOk (w : Nat) (s : SpaceS) : Prop where
  vectors : Built s.dataSize s.capacity 0 s.store
  sizes : s.metric < 2 ^ 32 ∧ s.dataSize < 2 ^ 32 ∧ s.dim < 2 ^ 32
  counts : s.itemCnt < 256 ^ w ∧ s.deleteCnt < 256 ^ w ∧ s.capacity < 256 ^ w
  config : ∀ c, s.config = some c → ConfigOk c

theorem IndexOk.toGraph {w : Nat} {x : Index} (h : IndexOk w x) : GraphFileOk w x.graph := ⟨h.ids, h.rows, h.eps, h.nodes, h.overlay⟩

theorem IndexOk.toSpace {w : Nat} {x : Index} (h : IndexOk w x) : SpaceFileOk w x.space := ⟨h.vectors, h.sizes, h.counts, h.config⟩

theorem graph_head {w : Nat} {g : GraphS} (h1 : g.eps.length < 2 ^ 31) (h2 : ∀ v ∈ g.eps, v < 256 ^ w)
    (h3 : g.maxNodes < 256 ^ w) (h4 : g.maxNbrs < 2 ^ 32) {pad : Bytes} (hp : w - 4 ≤ pad.length) (j : Junk) {store : Storage}
    {rest f6 : Bytes} (hl : Seq.load j.graphBits rest = some (store, f6)) :
    GraphS.load w j (leBytes 4 g.eps.length ++ (idBytes w g.eps ++ (leBytes w g.maxNodes ++ (leBytes 4 g.maxNbrs ++
      (pad.take (w - 4) ++ rest))))) =
    if f6 = [] then some ⟨g.eps, g.maxNodes, g.maxNbrs, store, none⟩
    else match Over.load w g.maxNodes g.maxNbrs j.ep f6 with
      | none => none
      | some (o, _) => some ⟨g.eps, g.maxNodes, g.maxNbrs, store, some o⟩ := by
  have hids := idsOf_idBytes w g.eps h2 []
  rw [List.append_nil] at hids
  rw [GraphS.load, rdNat_le (lt4 (n := g.eps.length) (by omega))]
  simp only
  rw [splitN_append' (idBytes_length w g.eps)]
  simp only
  rw [rdNat_le h3]
  simp only
  rw [rdNat_le (lt4 h4)]
  simp only
  rw [splitN_append' (by rw [List.length_take]; omega)]
  simp only
  rw [hl]
  simp only
  rw [hids]
  rfl

/-- The graph file. -/
theorem graph_file {w : Nat} {x : GraphS} (h : GraphFileOk w x) {pad : Bytes} (hp : w - 4 ≤ pad.length) (j : Junk) (hj : j.ep < 256 ^ w) :
    ∃ file g', x.save w pad = some file ∧ GraphS.load w j file = some g' ∧ g'.eps = x.eps ∧
      g'.maxNodes = x.maxNodes ∧ g'.maxNbrs = x.maxNbrs ∧ g'.overlay = x.overlay ∧
      g'.store.cap = x.store.cap ∧ g'.store.pos = x.store.pos ∧
      ∀ i, i < x.store.cap →
        g'.store.isValid i = x.store.isValid i ∧ g'.store.read i = x.store.read i := by
  cases ho : x.overlay with
  | none =>
    obtain ⟨hc, _, s', hl, a, b, c⟩ := h.rows.reload j.graphBits []
    rw [List.append_nil] at hl
    have e := graph_head h.eps.1 h.eps.2 h.nodes.1 h.nodes.2 hp j hl
    rw [if_pos rfl] at e
    refine ⟨_, _, ?_, e, rfl, rfl, rfl, rfl, by rw [hc]; exact a, b, by rw [hc]; exact c⟩
    unfold GraphS.save
    rw [ho]
  | some o =>
    have hw4 : w = 4 := by
      rcases h.ids with h | ⟨_, h⟩
      · exact h
      · rw [ho] at h; cases h
    subst hw4
    have e4 : ∀ {n : Nat}, n < 256 ^ 4 → n < 2 ^ 32 := by
      intro n hn
      have e : (256 : Nat) ^ 4 = 2 ^ 32 := by decide
      rw [e] at hn; exact hn
    obtain ⟨bs, e1, e2, e3⟩ := over_roundtrip (h.overlay o ho) (e4 h.nodes.1) h.nodes.2 (e4 hj)
    obtain ⟨hc, _, s', hl, a, b, c⟩ := h.rows.reload j.graphBits bs
    have e := graph_head h.eps.1 h.eps.2 h.nodes.1 h.nodes.2 hp j hl
    rw [if_neg e2, e3] at e
    refine ⟨_, _, ?_, e, rfl, rfl, rfl, rfl, by rw [hc]; exact a, b, by rw [hc]; exact c⟩
    unfold GraphS.save
    rw [ho]
    simp only [e1, List.append_assoc]

/-- The graph file. -/
theorem C71_graph {w : Nat} {x : Index} (h : IndexOk w x) {pad : Bytes} (hp : w - 4 ≤ pad.length) (j : Junk) (hj : j.ep < 256 ^ w) :
    ∃ file g', x.graph.save w pad = some file ∧ GraphS.load w j file = some g' ∧ g'.eps = x.graph.eps ∧
      g'.maxNodes = x.graph.maxNodes ∧ g'.maxNbrs = x.graph.maxNbrs ∧ g'.overlay = x.graph.overlay ∧
      g'.store.cap = x.graph.store.cap ∧ g'.store.pos = x.graph.store.pos ∧
      ∀ i, i < x.graph.store.cap →
        g'.store.isValid i = x.graph.store.isValid i ∧ g'.store.read i = x.graph.store.read i :=
  graph_file h.toGraph hp j hj

/-- What is read of a space file. -/
theorem space_file {w : Nat} {x : SpaceS} (h : SpaceFileOk w x) (bits : List (BitVec 8)) (rest : Bytes) :
    ∃ s', SpaceS.read w x.config.isSome bits (x.save w ++ rest) = some (s', rest) ∧ s'.metric = x.metric ∧
      s'.dataSize = x.dataSize ∧ s'.dim = x.dim ∧ s'.itemCnt = x.itemCnt ∧ s'.deleteCnt = x.deleteCnt ∧
      s'.capacity = x.capacity ∧ s'.config = x.config ∧ s'.store.cap = x.store.cap ∧ s'.store.pos = x.store.pos ∧
      x.store.pos ≤ x.capacity ∧
      ∀ i, i < x.capacity → s'.store.isValid i = x.store.isValid i ∧ s'.store.read i = x.store.read i := by
  obtain ⟨k1, k2, st, hl, a, b, c⟩ := h.vectors.reload bits rest
  have hcfg : loadConfig x.config.isSome ((x.config.map Config.save).getD [] ++ (x.store.save ++ rest)) =
      some (x.config, x.store.save ++ rest) := by
    cases hc : x.config with
    | none => rfl
    | some cf =>
      simp only [Option.map_some, Option.getD_some, Option.isSome_some, loadConfig, if_true]
      rw [config_roundtrip (h.config cf hc)]
  refine ⟨⟨x.metric, x.dataSize, x.dim, x.itemCnt, x.deleteCnt, x.capacity, x.config, st⟩,
    ?_, rfl, rfl, rfl, rfl, rfl, rfl, rfl, by rw [k1]; exact a, b, k2, c⟩
  rw [SpaceS.read, SpaceS.save]
  simp only [List.append_assoc]
  rw [rdNat_le (lt4 h.sizes.1)]
  simp only
  rw [rdNat_le (lt4 h.sizes.2.1)]
  simp only
  rw [rdNat_le (lt4 h.sizes.2.2)]
  simp only
  rw [rdNat_le h.counts.1]
  simp only
  rw [rdNat_le h.counts.2.1]
  simp only
  rw [rdNat_le h.counts.2.2]
  simp only
  rw [hcfg]
  simp only
  rw [hl]

/-- The data file, with the configuration of the scalar data. -/
theorem C71_space {w : Nat} {x : Index} (h : IndexOk w x) (j : Junk) :
    ∃ s', SpaceS.load w x.space.config.isSome j (x.space.save w) = some s' ∧ s'.metric = x.space.metric ∧
      s'.dataSize = x.space.dataSize ∧ s'.dim = x.space.dim ∧ s'.itemCnt = x.space.itemCnt ∧ s'.deleteCnt = x.space.deleteCnt ∧
      s'.capacity = x.space.capacity ∧ s'.config = x.space.config ∧ s'.store.pos = x.space.store.pos ∧
      ∀ i, i < x.space.capacity →
        s'.store.isValid i = x.space.store.isValid i ∧ s'.store.read i = x.space.store.read i := by
  obtain ⟨s', e, a1, a2, a3, a4, a5, a6, a7, _, a8, _, a9⟩ := space_file h.toSpace j.spaceBits []
  rw [List.append_nil] at e
  exact ⟨s', by rw [SpaceS.load, e]; rfl, a1, a2, a3, a4, a5, a6, a7, a8, a9⟩

/-- Saving and loading gives the same index, except that the record of the removed rows is empty. -/
theorem C71_save_load {w : Nat} {x : Index} (h : IndexOk w x) {pad : Bytes} (hp : w - 4 ≤ pad.length) (j : Junk)
    (hj : j.ep < 256 ^ w) :
    ∃ files y, x.save w pad = some files ∧ Index.load w x.space.config.isSome j files = some y ∧
      y.view w = { x.view w with inserted := [], removed := [], removedNbrs := [] } ∧
      y.space.metric = x.space.metric ∧ y.space.dim = x.space.dim ∧ y.space.config = x.space.config ∧
      y.space.itemCnt = x.space.itemCnt ∧ y.space.deleteCnt = x.space.deleteCnt := by
  obtain ⟨file, g', e1, e2, a1, a2, a3, a4, a5, a6, a7⟩ := C71_graph h hp j hj
  obtain ⟨s', f1, b1, b2, b3, b4, b5, b6, b7, b8, b9⟩ := C71_space h j
  refine ⟨(file, x.space.save w), ⟨g', s', [], [], []⟩, ?_, ?_, ?_, b1, b3, b7, b4, b5⟩
  · unfold Index.save
    rw [e1]
  · unfold Index.load
    simp only [e2, f1]
  · obtain ⟨_, hpos, _⟩ := h.vectors.reload j.spaceBits []
    unfold Index.view GraphS.view
    simp only [a1, a3, a4, a5, b8]
    have hr : (List.range x.graph.store.cap).map (g'.row w) = (List.range x.graph.store.cap).map (x.graph.row w) := by
      refine List.map_congr_left (fun i hi => ?_)
      unfold GraphS.row
      rw [(a7 i (List.mem_range.mp hi)).2, a3]
    have hv : (List.range x.space.store.pos).map (fun i => (s'.store.isValid i).getD false) =
        (List.range x.space.store.pos).map (fun i => (x.space.store.isValid i).getD false) := by
      refine List.map_congr_left (fun i hi => ?_)
      rw [(b9 i (Nat.lt_of_lt_of_le (List.mem_range.mp hi) hpos)).1]
    have hd : (List.range x.space.store.pos).map (fun i => (s'.store.read i).getD []) =
        (List.range x.space.store.pos).map (fun i => (x.space.store.read i).getD []) := by
      refine List.map_congr_left (fun i hi => ?_)
      rw [(b9 i (Nat.lt_of_lt_of_le (List.mem_range.mp hi) hpos)).2]
    rw [hr, hv, hd]

/-- A loaded index answers every search as the saved one, whatever rows have been removed. -/
theorem C71_search {w : Nat} {x : Index} (h : IndexOk w x) {pad : Bytes} (hp : w - 4 ≤ pad.length) (j : Junk) (hj : j.ep < 256 ^ w) :
    ∃ files y, x.save w pad = some files ∧ Index.load w x.space.config.isSome j files = some y ∧
      ∀ (D : Nat → Nat → Bytes → Bytes → Int) (fmax : Int) (q : Bytes) (topk ef fuel : Nat),
        y.search w D fmax q topk ef fuel = x.search w D fmax q topk ef fuel := by
  obtain ⟨files, y, e1, e2, hv, hm, hdim, _⟩ := C71_save_load h hp j hj
  refine ⟨files, y, e1, e2, fun D fmax q topk ef fuel => ?_⟩
  unfold Index.search
  rw [hv, hm, hdim]
  rfl

/-- If no row has been removed from the saved index since it was built or loaded, every history of insertions and removals on the
loaded index returns the same ids and ends in the same index. -/
theorem C71_updates {w : Nat} {x : Index} (h : IndexOk w x) (hr : x.removed = []) (hn : x.removedNbrs = []) (hi : x.inserted = [])
    {pad : Bytes} (hp : w - 4 ≤ pad.length) (j : Junk) (hj : j.ep < 256 ^ w) :
    ∃ files y, x.save w pad = some files ∧ Index.load w x.space.config.isSome j files = some y ∧
      ∀ (D : Nat → Nat → Bytes → Bytes → Int) (fmax : Int) (ord : List Nat → List Nat) (fuel : Nat) (ops : List (GraphUpdate.Op Bytes)),
        Ix.run (Ix.near (D y.space.metric y.space.dim) fmax) ord fuel ops (y.view w) =
          Ix.run (Ix.near (D x.space.metric x.space.dim) fmax) ord fuel ops (x.view w) := by
  obtain ⟨files, y, e1, e2, hv, hm, hdim, _⟩ := C71_save_load h hp j hj
  refine ⟨files, y, e1, e2, fun D fmax ord fuel ops => ?_⟩
  have : ({ x.view w with inserted := [], removed := [], removedNbrs := [] } : Ix Bytes) = x.view w := by
    unfold Index.view
    simp only [hr, hn, hi]
  rw [hv, hm, hdim, this]

/-- Whatever has been removed before: if the saved index was in order, every proper history on the loaded one ends as the
specification of C69 says, from the rows and marks of the saved one. -/
theorem C71_history {w : Nat} {x : Index} (h : IndexOk w x) (hx : Inv (x.view w)) {pad : Bytes} (hp : w - 4 ≤ pad.length) (j : Junk)
    (hj : j.ep < 256 ^ w) {near : Ix Bytes → Bytes → Nat → Int} {ord : List Nat → List Nat} (ho : ∀ l, (ord l).Perm l)
    (ops : List (GraphUpdate.Op Bytes)) (hops : proper (x.view w).g.rows.length x.graph.maxNbrs ops (x.view w).vecs.length) :
    ∃ files y s', x.save w pad = some files ∧ Index.load w x.space.config.isSome j files = some y ∧
      (∀ extra, (y.view w).run near ord ((x.view w).g.rows.length + 1 + extra) ops =
        some (some (s', (contents (x.view w).g.rows.length ops (x.view w).abs).2))) ∧
      Inv s' ∧ s'.abs = (contents (x.view w).g.rows.length ops (x.view w).abs).1 := by
  obtain ⟨files, y, e1, e2, hv, _⟩ := C71_save_load h hp j hj
  have hi := hx.reopened
  rw [← hv] at hi
  have hg : (y.view w).g = (x.view w).g := by rw [hv]
  have ha : (y.view w).abs = (x.view w).abs := by rw [hv]; rfl
  have hl : (y.view w).vecs = (x.view w).vecs := by rw [hv]
  have hm : (y.view w).maxNbrs = x.graph.maxNbrs := by rw [hv]; rfl
  obtain ⟨s', r1, r2, r3, -⟩ := C69_history_partial (near := near) ho ops (y.view w) hi (by rw [hg, hl, hm]; exact hops)
  rw [hg, ha] at r1 r3
  exact ⟨files, y, s', e1, e2, r1, r2, r3⟩

/-! ### Where it fails -/

/-- With 1000 indexed fields or more the field names are not read: the loaded space has none, and what is then read as the vectors
are the names. -/
theorem C71_fields_refuted {c : Config} (a : c.dbPath.length < 2 ^ 64)
    (b : c.writeBuffer < 2 ^ 64 ∧ c.fileSize < 2 ^ 64 ∧ c.cacheMb < 2 ^ 64)
    (d : c.buffers < 2 ^ 32 ∧ c.compactions < 2 ^ 32 ∧ c.flushes < 2 ^ 32)
    (e : 1000 ≤ c.fields.length ∧ c.fields.length < 2 ^ 64) (rest : Bytes) :
    Config.load (c.save ++ rest) = some ({ c with fields := [] }, saveFields c.fields ++ rest) := by
  have hc : ∀ r, rdNat 1 ((if c.compress then (1 : UInt8) else 0) :: r) = some (if c.compress then 1 else 0, r) := by
    intro r
    cases c.compress <;> simp [rdNat, splitN, leNat]
  rw [Config.load, Config.save]
  simp only [List.append_assoc, List.cons_append]
  rw [rdNat_le (lt8 a)]; simp only
  rw [splitN_append' rfl]; simp only
  rw [rdNat_le (lt8 b.1)]; simp only
  rw [rdNat_le (lt4 d.1)]; simp only
  rw [rdNat_le (lt8 b.2.1)]; simp only
  rw [rdNat_le (lt4 d.2.1)]; simp only
  rw [rdNat_le (lt4 d.2.2)]; simp only
  rw [rdNat_le (lt8 b.2.2)]; simp only
  rw [hc]; simp only
  rw [rdNat_le (lt8 e.2)]; simp only
  rw [if_neg (by omega)]
  have hz : ((if c.compress then 1 else 0 : Nat) != 0) = c.compress := by cases c.compress <;> rfl
  rw [hz]

/-- A storage with some content. -/
def filled (isz cap : Nat) (fill : UInt8) (ops : List Seq.Op) : Storage :=
  (((Seq.init isz cap fill (2 ^ 6)).run ops).map Prod.fst).getD (Seq.init isz cap fill (2 ^ 6))

/-- An index with ids of `w` bytes, two neighbours per node, room for six one-byte vectors, and scalar data. -/
def exIndex (w : Nat) (rows : List (List Nat)) (vecs : List UInt8) (over : Option Over) (gone : List Nat) : Index where
  graph := ⟨[0], 6, 2, filled (2 * w) 6 255 (rows.map (fun r => .insert (idBytes w r))), over⟩
  space := ⟨0, 1, 1, vecs.length, gone.length, 6, some ⟨str "./db", 67108864, 4, 67108864, 4, 2, 512, false, [str "tag"]⟩,
    filled 1 6 0 (vecs.map (fun v => .insert [v]) ++ gone.map .remove)⟩
  inserted := []
  removed := gone
  removedNbrs := gone.map (fun r => (r, ((rows.getD r []).takeWhile (· ≠ noId))))

def exD (_ _ : Nat) (a b : Bytes) : Int := ((leNat a : Int) - leNat b).natAbs

def exJunk (w : Nat) : Junk := ⟨[255#8, 255#8], [170#8], 256 ^ w - 1, []⟩

/-- Loading what saving wrote. -/
def reload (w : Nat) (x : Index) : Option Index :=
  match x.save w [0, 0, 0, 0] with
  | none => none
  | some files => Index.load w x.space.config.isSome (exJunk w) files

/-- The hits of a search after some calls. -/
def hitsAfter (w : Nat) (x : Option Index) (ops : List (GraphUpdate.Op Bytes)) (q : UInt8) (topk ef : Nat) :
    Option (Option (List (Nat × Option Int))) :=
  match x with
  | none => none
  | some x =>
    match (x.view w).run (Ix.near (exD 0 0) 1000) id 30 ops with
    | some (some (s, _)) => s.search (Ix.near (exD 0 0) 1000) [q] topk ef 30
    | _ => none

def exGone : Index := exIndex 4 [[1, 2], [3, noId], [0, noId], [noId, noId]] [20, 21, 30, 22] none [1]

/-- Row 1 has been removed.  After saving and loading, the same insertion gives another graph: the vector 30 (row 2) is found by the
loaded index and not by the one that kept running. -/
theorem C71_job_context_refuted :
    hitsAfter 4 (some exGone) [] 30 1 6 = some (some [(2, some 0)]) ∧ hitsAfter 4 (reload 4 exGone) [] 30 1 6 = some (some [(2, some 0)]) ∧
    hitsAfter 4 (some exGone) [.insert [19] 6] 30 1 6 = some (some [(3, some 8)]) ∧
    hitsAfter 4 (reload 4 exGone) [.insert [19] 6] 30 1 6 = some (some [(2, some 0)]) := by
  exact ⟨by decide +kernel, by decide +kernel, by decide +kernel, by decide +kernel⟩

/-- Ids of eight bytes: of the upper lists only the first half of the bytes is written. -/
theorem C71_id64_refuted :
    let none64 := 18446744073709551615
    let x := exIndex 8 [[none64, none64], [none64, none64], [none64, none64]] [10, 50, 90]
      (some ⟨6, 2, 0, [1, 1, 1, 0, 0, 0], [[1, 2], [0, none64], [0, none64], [], [], []]⟩) []
    hitsAfter 8 (some x) [] 90 1 6 = some (some [(2, some 0)]) ∧
    ((reload 8 x).bind (fun y => y.graph.overlay)).map Over.lists =
      some [[1, none64], [0, none64], [0, none64], [], [], []] := by
  decide +kernel

/-- The loaded overlay of eight byte ids has an entry point whose upper half is whatever was in memory. -/
theorem C71_id64_entry_refuted :
    ((reload 8 (exIndex 8 [] [] (some ⟨6, 2, 0, [0, 0, 0, 0, 0, 0], [[], [], [], [], [], []]⟩) [])).bind
      (fun y => y.graph.overlay)).map Over.ep = some 18446744069414584320 := by
  decide +kernel

/-- A graph file that ends where the upper layers begin is loaded without an error, as a graph without upper layers. -/
theorem C71_truncated_refuted :
    let x := exIndex 4 [[noId, noId], [noId, noId], [noId, noId]] [10, 50, 90]
      (some ⟨6, 2, 0, [1, 1, 1, 0, 0, 0], [[1, 2], [0, noId], [0, noId], [], [], []]⟩) []
    hitsAfter 4 (some x) [] 90 1 6 = some (some [(2, some 0)]) ∧
    hitsAfter 4 (match x.save 4 [] with
      | some (g, s) => Index.load 4 true (exJunk 4) (g.take (g.length - (12 + 6 * 4 + 3 * 8)), s)
      | none => none) [] 90 1 6 = some (some [(0, some 80)]) := by
  decide +kernel

/-! ### A concrete case -/

/-- An index with upper layers, scalar data and a removed row. -/
def exOk : Index := exIndex 4 [[1, 2], [0, 2], [0, noId]] [10, 50, 90]
  (some ⟨6, 2, 0, [1, 1, 0, 0, 0, 0], [[1, noId], [0, noId], [], [], [], []]⟩) [2]

theorem exOk_ok : IndexOk 4 exOk where
  ids := .inl rfl
  rows := ⟨⟨by decide, by decide, by decide⟩, [[1, 2], [0, 2], [0, noId]].map (fun r => .insert (idBytes 4 r)),
    [some 0, some 1, some 2], by intro op h; simp at h; rcases h with rfl | rfl | rfl <;> exact rfl, by decide +kernel⟩
  vectors := ⟨⟨by decide, by decide, by decide⟩, [.insert [10], .insert [50], .insert [90], .remove 2],
    [some 0, some 1, some 2, some 2], by intro op h; simp at h; rcases h with rfl | rfl | rfl | rfl <;> first | exact rfl | exact (by decide : 2 < 6), by decide +kernel⟩
  eps := by decide
  nodes := by decide
  overlay := by
    intro o h
    cases h
    exact ⟨by decide, by decide, by decide, rfl, rfl, by decide⟩
  sizes := by decide
  counts := by decide
  config := by
    intro c h
    cases h
    exact ⟨by decide, by decide, by decide, by decide, by decide⟩

example : hitsAfter 4 (some exOk) [] 60 2 6 = some (some [(1, some 10), (0, some 50)]) ∧
    hitsAfter 4 (reload 4 exOk) [] 60 2 6 = some (some [(1, some 10), (0, some 50)]) := by decide +kernel

end Alaya.IndexFile
