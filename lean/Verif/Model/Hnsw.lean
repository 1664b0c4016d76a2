import Verif.Model.MemSearch

/-
The construction of the HNSW graph by several threads.
/repo/include/index/graph/hnsw/hnswlib.hpp:75-109 (constructor), 181-231 (the link lists), 279-342 (`get_neighbors_by_heuristic2`),
361-477 (`search_base_layer`), 500-623 (`mutually_connect_new_element`), 640-739 (`add_point`),
/repo/include/index/graph/hnsw/hnsw_builder.hpp:57-63, 87-184 (`build_graph`), /repo/include/index/graph/hnsw/visited_list_pool.hpp.

One step of the model is what one thread does between two points at which it may have to wait: from taking a lock to releasing it, with the
local work before or after.  Inside such a section no other lock is taken, with one exception: the thread that inserts node `i` holds the
lock of `i`'s own lists (`lock_el`, line 661) from the registration until `add_point` returns.  So the lists of a node can be read or
written by others exactly when its insertion is over (`Ph.done`).  A scheduler picks any enabled step; the number of threads is not bounded.

Simplifications: distances are integers (they are only compared and negated; NaN is excluded); the drawn level is a parameter of the step
(`get_random_level`, also with a racy generator, returns some number; the conversion of an infinite value is excluded, which needs
`max_edge_num_ ≥ 2` and a draw above 0); `std::priority_queue` with `CompareByFirst` may return any of its largest entries (`Pick`);
the members `maxlevel_` and `enterpoint_node_` are read and written atomically; memory allocation succeeds; fewer than 2^31 levels.
-/
namespace Alaya.Hnsw
open Alaya.MemSearch

/-- An entry of a queue: distance to the inserted vector and internal id. -/
abbrev Cand := Int × Nat

/-- The parameters. `dist` is `space_->get_distance` of two labels. hnswlib.hpp:75-109 -/
structure Cfg where
  /-- `max_elements_` -/
  n : Nat
  /-- `max_edge_num_` -/
  m : Nat
  /-- the argument `ef_construction` -/
  efc : Nat
  dist : Nat → Nat → Int

/-- `ef_construction_`. hnswlib.hpp:89 -/
def Cfg.ef (c : Cfg) : Nat := max c.efc c.m

/-- Number of slots of a list: `size_data_per_element_` and `size_links_per_element_` without the counter; also `mcurmax`.
hnswlib.hpp:88, 92, 105, 508 -/
def Cfg.cap (c : Cfg) (lv : Nat) : Nat := if lv = 0 then c.m * 2 else c.m

/-- The locals of `search_base_layer`. hnswlib.hpp:365-389 -/
structure Srch where
  top : List Cand
  cand : List Cand
  vis : List Nat
  lb : Int
  deriving DecidableEq, Repr

/-- Where the insertion of a node is. -/
inductive Ph
  /-- registered, its own lock taken, before `global_` -/
  | wait
  /-- `maxlevel_copy` is known -/
  | enter
  /-- on the way down: level, `curr_node`, `curdist` -/
  | descend (lv u : Nat) (d : Int)
  /-- in `search_base_layer` -/
  | search (lv : Nat) (st : Srch)
  /-- own list of the level written; the neighbours still to be connected, and `next_closest_entry_point` -/
  | link (lv : Nat) (rest : List Nat) (nxt : Nat)
  | done
  deriving DecidableEq, Repr

/-- What is stored for an internal id. `links[l]` is the list of level `l`. -/
structure Node where
  label : Nat
  level : Nat
  /-- `maxlevel_copy`, `none` for -1 -/
  ml : Option Nat
  links : List (List Nat)
  ph : Ph
  deriving DecidableEq, Repr

/-- `todo`: the labels whose `add_point` has not been called; `glob`: the holder of `global_`. -/
structure State where
  todo : List Nat
  nodes : List Node
  glob : Option Nat
  ent : Option Nat
  maxl : Option Nat
  deriving DecidableEq, Repr

/-- Outcome of a step. -/
inductive Out
  /-- the thread has to wait, or there is no such step -/
  | blocked
  /-- undefined behaviour -/
  | ub
  | ok (s : State)
  deriving DecidableEq, Repr

/-- How a `std::priority_queue` ordered by the first component chooses its top among equal ones. -/
abbrev Pick := List Cand → Cand

/-- `get_external_label`. hnswlib.hpp:139-142 -/
def State.label (s : State) (i : Nat) : Nat := ((s.nodes[i]?).map Node.label).getD 0

/-- Distance of two nodes. -/
def State.dist (c : Cfg) (s : State) (i j : Nat) : Int := c.dist (s.label i) (s.label j)

/-- Is the lock of `u`'s lists free? -/
def State.free (s : State) (u : Nat) : Bool :=
  match s.nodes[u]? with
  | none => true
  | some x => x.ph = .done

/-- The list at `get_linklist0` / `get_linklist`: `none` if the memory does not belong to the node, or an entry is no node.
hnswlib.hpp:181-184, 228-231, 139-142 -/
def State.read (s : State) (u lv : Nat) : Option (List Nat) :=
  match s.nodes[u]? with
  | none => none
  | some x =>
    match x.links[lv]? with
    | none => none
    | some l => if l.all (· < s.nodes.length) then some l else none

/-- Writing a list: `none` if it does not fit. -/
def State.write (c : Cfg) (s : State) (u lv : Nat) (l : List Nat) : Option State :=
  match s.nodes[u]? with
  | none => none
  | some x =>
    if lv < x.links.length ∧ l.length ≤ c.cap lv then
      some { s with nodes := s.nodes.set u { x with links := x.links.set lv l } }
    else none

/-- Change of the phase. -/
def State.phase (s : State) (i : Nat) (p : Ph) : State :=
  match s.nodes[i]? with
  | none => s
  | some x => { s with nodes := s.nodes.set i { x with ph := p } }

/-- `std::pair` comparison of the negated distances: nearest first, on equality the larger id. hnswlib.hpp:290, 309 -/
def before (a b : Cand) : Bool := a.1 < b.1 ∨ (a.1 = b.1 ∧ b.2 < a.2)

/-- Insertion into the order of `queue_closest`. -/
def sortIns (a : Cand) : List Cand → List Cand
  | [] => [a]
  | b :: l => if before b a then b :: sortIns a l else a :: b :: l

/-- The order in which `queue_closest` is emptied. hnswlib.hpp:296-299 -/
def sortC : List Cand → List Cand
  | [] => []
  | a :: l => sortIns a (sortC l)

/-- The selection loop. hnswlib.hpp:302-335 -/
def heurLoop (dd : Nat → Nat → Int) (m : Nat) : List Cand → List Cand → List Cand
  | [], ret => ret
  | x :: xs, ret =>
    if m ≤ ret.length then ret
    else if ret.any (fun r => dd r.2 x.2 < x.1) then heurLoop dd m xs ret
    else heurLoop dd m xs (ret ++ [x])

/-- `get_neighbors_by_heuristic2`. hnswlib.hpp:279-342 -/
def heur (dd : Nat → Nat → Int) (m : Nat) (q : List Cand) : List Cand :=
  if q.length < m then q else heurLoop dd m (sortC q) []

/-- Emptying a queue from its top; the first argument is its size. hnswlib.hpp:516-521, 609-614 -/
def popAll (pk : Pick) : Nat → List Cand → List Nat
  | 0, _ => []
  | k + 1, q => (pk q).2 :: popAll pk k (q.erase (pk q))

/-- The scan of a list on the way down. hnswlib.hpp:695-703 -/
def nearer (d : Nat → Int) : List Nat → Nat × Int × Bool → Nat × Int × Bool
  | [], r => r
  | v :: vs, r => if d v < r.2.1 then nearer d vs (v, d v, true) else nearer d vs r

/-- The loop over the neighbours of an expanded node. hnswlib.hpp:429-469 -/
def scan (d : Nat → Int) (ef : Nat) (pk : Pick) : List Nat → Srch → Srch
  | [], st => st
  | v :: vs, st =>
    if v ∈ st.vis then scan d ef pk vs st
    else if st.top.length < ef ∨ d v < st.lb then
      let t := (d v, v) :: st.top
      let t := if ef < t.length then t.erase (pk t) else t
      let lb := if t = [] then st.lb else (pk t).1
      scan d ef pk vs ⟨t, (d v, v) :: st.cand, v :: st.vis, lb⟩
    else scan d ef pk vs { st with vis := v :: st.vis }

/-- The start of `search_base_layer`. hnswlib.hpp:379-389 -/
def Srch.start (d : Nat → Int) (u : Nat) : Srch := ⟨[(d u, u)], [(d u, u)], [u], d u⟩

/-- The entry of `candidate_set` that comes next: a least one. The heap orders by the negated distances. hnswlib.hpp:384-394 -/
def next (pk : Pick) (l : List Cand) : Cand :=
  let x := pk (l.map (fun y => (-y.1, y.2)))
  (-x.1, x.2)

/-- The end of `add_point`. hnswlib.hpp:733-738 -/
def State.finish (s : State) (i : Nat) : Out :=
  match s.nodes[i]? with
  | none => .ub
  | some x =>
    let s := if x.ml.all (· < x.level) then { s with ent := some i, maxl := some x.level } else s
    .ok { (s.phase i .done) with glob := if s.glob = some i then none else s.glob }

/-- From the result of a search to the first neighbour to be connected. hnswlib.hpp:507-550 -/
def State.connect (c : Cfg) (pk : Pick) (s : State) (i lv : Nat) (top : List Cand) : Out :=
  let q := heur (s.dist c) c.m top
  let sel := popAll pk q.length q
  match sel.getLast? with
  | none => .ub
  | some nxt =>
    match s.write c i lv sel with
    | none => .ub
    | some s' => .ok (s'.phase i (.link lv sel nxt))

/-- The new list of a neighbour `y` with list `l`. hnswlib.hpp:582-617; `is_cur_c_present` stays false since `isUpdate` is false. -/
def newList (c : Cfg) (pk : Pick) (s : State) (i y lv : Nat) (l : List Nat) : List Nat :=
  if l.length < c.cap lv then l ++ [i]
  else
    let q := heur (s.dist c) (c.cap lv) ((s.dist c i y, i) :: l.map (fun x => (s.dist c x y, x)))
    popAll pk q.length q

/-- The call of `add_point(label)` up to `lock_el` and the drawn level. The builder inserts label 0 before it starts the threads.
hnswlib.hpp:640-664, hnsw_builder.hpp:102-116; the storage of the upper levels: hnswlib.hpp:674-679 -/
def State.begin (c : Cfg) (s : State) (label level : Nat) : Out :=
  if label ∉ s.todo then .blocked
  else if label ≠ 0 ∧ ¬ s.nodes.any (fun x => x.label = 0 ∧ x.ph = .done) then .blocked
  else if s.nodes.any (fun x => x.label % 65536 = label % 65536 ∧ x.ph ≠ .done) then .blocked
  else if s.nodes.any (fun x => x.label = label) then .ok { s with todo := s.todo.erase label }
  else if c.n ≤ s.nodes.length then .ub
  else .ok { s with todo := s.todo.erase label,
                    nodes := s.nodes ++ [⟨label, level, none, List.replicate (level + 1) [], .wait⟩] }

/-- The next step of the thread that inserts node `i`. hnswlib.hpp:666-738 -/
def State.run (c : Cfg) (pk : Pick) (s : State) (i : Nat) : Out :=
  match s.nodes[i]? with
  | none => .blocked
  | some x =>
    match x.ph with
    | .done => .blocked
    | .wait =>
      if s.glob ≠ none then .blocked
      else
        let s' := { s with nodes := s.nodes.set i { x with ml := s.maxl, ph := .enter } }
        .ok (if s.maxl.any (x.level ≤ ·) then s' else { s' with glob := some i })
    | .enter =>
      match s.ent with
      | none => State.finish { s with ent := some 0, maxl := some x.level } i
      | some u =>
        if s.nodes.length ≤ u then .ub
        else match x.ml with
          | none => s.finish i
          | some ml =>
            if x.level < ml then .ok (s.phase i (.descend ml u (s.dist c i u)))
            else .ok (s.phase i (.search (min x.level ml) (.start (s.dist c i) u)))
    | .descend lv u d =>
      if ¬ s.free u then .blocked
      else match s.read u lv with
        | none => .ub
        | some l =>
          let r := nearer (s.dist c i) l (u, d, false)
          if r.2.2 then .ok (s.phase i (.descend lv r.1 r.2.1))
          else if x.level < lv - 1 then .ok (s.phase i (.descend (lv - 1) r.1 r.2.1))
          else .ok (s.phase i (.search x.level (.start (s.dist c i) r.1)))
    | .search lv st =>
      if st.cand = [] then s.connect c pk i lv st.top
      else
        let e := next pk st.cand
        if st.lb < e.1 ∧ st.top.length = c.ef then s.connect c pk i lv st.top
        else if ¬ s.free e.2 then .blocked
        else match s.read e.2 lv with
          | none => .ub
          | some l => .ok (s.phase i (.search lv (scan (s.dist c i) c.ef pk l { st with cand := st.cand.erase e })))
    | .link lv (y :: rest) nxt =>
      if ¬ s.free y then .blocked
      else match s.read y lv with
        | none => .ub
        | some l =>
          match s.write c y lv (newList c pk s i y lv l) with
          | none => .ub
          | some s' => .ok (s'.phase i (.link lv rest nxt))
    | .link 0 [] _ => s.finish i
    | .link (lv + 1) [] nxt => .ok (s.phase i (.search lv (.start (s.dist c i) nxt)))

/-- What a scheduler can choose. -/
inductive Act
  | begin (label level : Nat)
  | run (i : Nat) (pk : Pick)

def State.step (c : Cfg) (s : State) : Act → Out
  | .begin label level => s.begin c label level
  | .run i pk => s.run c pk i

/-- After the constructor, with the calls of `build_graph` still to come. hnswlib.hpp:80-109, hnsw_builder.hpp:102-106 -/
def State.init (c : Cfg) : State := ⟨List.range c.n, [], none, none, none⟩

/-- All calls of `add_point` have returned. -/
def State.finished (s : State) : Prop := s.todo = [] ∧ ∀ x ∈ s.nodes, x.ph = .done

instance (s : State) : Decidable s.finished := by unfold State.finished; infer_instance

/-! ### The lists of visited nodes. visited_list_pool.hpp:15-36, 56-74

A list belongs to one thread between `get_free_visited_list` and `release_visited_list`.  In `Srch` the set of its marked nodes is used. -/

/-- `VisitedList`: the tag of 16 bits and the array. -/
structure VList where
  cur : BitVec 16
  mass : List (BitVec 16)
  deriving DecidableEq, Repr

/-- The constructor; the array is not initialised. visited_list_pool.hpp:21-25 -/
def VList.new (mass : List (BitVec 16)) : VList := ⟨-1, mass⟩

/-- `reset`, called by `get_free_visited_list`. visited_list_pool.hpp:27-33 -/
def VList.reset (v : VList) : VList :=
  if v.cur + 1 = 0 then ⟨1, v.mass.map (fun _ => 0)⟩ else ⟨v.cur + 1, v.mass⟩

/-- `visited_array[id] = visited_array_tag`. hnswlib.hpp:389, 443 -/
def VList.mark (v : VList) (id : Nat) : VList := ⟨v.cur, v.mass.set id v.cur⟩

/-- `visited_array[id] == visited_array_tag`. hnswlib.hpp:439 -/
def VList.marked (v : VList) (id : Nat) : Bool := v.mass[id]? = some v.cur

/-! ### The copy into the graph that is searched. hnsw_builder.hpp:131-182 -/

/-- A level 0 list as the `uint32_t` words that `edges` points to; `w` is `sizeof(IDType)`. Only words up to the last entry are given.
hnsw_builder.hpp:139 -/
def words (w : Nat) (l : List Nat) : List Nat :=
  if w = 8 then (l.length :: l).flatMap (fun x => [x % 2 ^ 32, x / 2 ^ 32]) else l.length :: l

/-- `label_lookup_[label]`: the internal id; a missing label is entered with id 0. hnsw_builder.hpp:138, 160 -/
def State.lookup (s : State) (label : Nat) : Nat :=
  if s.nodes.any (fun x => x.label = label) then s.nodes.findIdx (fun x => x.label = label) else 0

/-- The loop over `edges`: the labels of the words 1 to `edges[0]`. hnsw_builder.hpp:140-144 -/
def State.labels (c : Cfg) (s : State) (ws : List Nat) : Option (List Nat) :=
  if ws.all (· < c.n) then some (ws.map s.label) else none

/-- A row with `r` slots, -1 behind the entries; `none` = a write behind its end. hnsw_builder.hpp:137-144, 169-175 -/
def fill (none_ r : Nat) (l : List Nat) : Option (List Nat) :=
  if l.length ≤ r then some (l ++ List.replicate (r - l.length) none_) else none

/-- One row of level 0. hnsw_builder.hpp:135-147 -/
def State.row0 (c : Cfg) (w r : Nat) (s : State) (label : Nat) : Option (List Nat) :=
  match s.nodes[s.lookup label]? with
  | none => none
  | some x =>
    match x.links[0]? with
    | none => none
    | some l =>
      match words w l with
      | [] => none
      | k :: ws =>
        match s.labels c (ws.take k) with
        | none => none
        | some ids => fill (256 ^ w - 1) r ids

/-- The block of one upper level. hnsw_builder.hpp:171-176 -/
def State.block (c : Cfg) (w r : Nat) (s : State) (x : Node) (lv : Nat) : Option (List Nat) :=
  match x.links[lv]? with
  | none => none
  | some l =>
    match s.labels c l with
    | none => none
    | some ids => fill (256 ^ w - 1) r ids

/-- The loop over the levels: the blocks of levels 1 to `lv`. hnsw_builder.hpp:164-177 -/
def State.blocks (c : Cfg) (w r : Nat) (s : State) (x : Node) : Nat → Option (List Nat)
  | 0 => some []
  | lv + 1 =>
    match s.blocks c w r x lv with
    | none => none
    | some bs =>
      match s.block c w r x (lv + 1) with
      | none => none
      | some b => some (bs ++ b)

/-- All of a list, or `none`. -/
def collect {α β : Type} (f : α → Option β) : List α → Option (List β)
  | [] => some []
  | a :: l =>
    match f a with
    | none => none
    | some b =>
      match collect f l with
      | none => none
      | some bs => some (b :: bs)

/-- The graph returned by `build_graph` for labels up to `n`, with room for `capacity` nodes and `r` neighbours; the rows behind the last
node are filled with -1. hnsw_builder.hpp:131-184, graph.hpp:60-75 -/
def State.build (c : Cfg) (w r capacity : Nat) (s : State) : Option MGraph :=
  match collect (s.row0 c w r) (List.range c.n) with
  | none => none
  | some rows =>
    match s.ent with
    | none => none
    | some e =>
      match collect (fun i => (s.nodes[s.lookup i]?).bind (fun x => s.blocks c w r x x.level)) (List.range c.n) with
      | none => none
      | some lists =>
        some { rows := rows ++ List.replicate (capacity - c.n) (List.replicate r (256 ^ w - 1)), eps := [],
               overlay := some { maxNbrs := r, ep := s.label e,
                                 levels := (List.range c.n).map (fun i => ((s.nodes[s.lookup i]?).map Node.level).getD 0) ++
                                   List.replicate (capacity - c.n) 0,
                                 lists := lists ++ List.replicate (capacity - c.n) [] } }

end Alaya.Hnsw
