import Verif.Lemmas.PyClient
import Verif.Props.C87
import Mathlib.Tactic.FinCases

/-! C88: collections of one client do not influence each other. -/
namespace Alaya.Client
open Wal Recovery Py

/-! ### the full statements -/

/-- The state of a collection after an interleaved history is the state its own events alone give. -/
def Isolated (pl : Places) (names : Bytes → Prop) : Prop :=
  ∀ (h : List (Bytes × CEv)), (∀ x ∈ h, names x.1) → ∀ k, names k →
    (wrun pl World.empty h).see pl k = crun ⟨noDisk, 0, none⟩ ((h.filter (fun x => decide (x.1 = k))).map Prod.snd)

/-- For a client with a url, whatever the names are. -/
def C88AnyName : Prop :=
  ∀ (cwd : List Bytes) (url : Bytes), url.head? = some slash → Isolated (placesFor cwd url (clientPath url)) (fun _ => True)

/-- For a client without a url (no disk deletions are possible then, so `url` only fills a field). -/
def C88NoUrl : Prop :=
  ∀ (cwd : List Bytes) (base : Bytes), base.head? = some slash →
    Isolated (placesFor cwd base (defaultPath base)) Plain

/-- With a different explicit `rocksdb_path` for every collection. -/
def C88OwnPath : Prop :=
  ∀ (cwd : List Bytes) (url : Bytes) (path : Bytes → Bytes), url.head? = some slash →
    (∀ n k, Plain n → Plain k → n ≠ k → resolve cwd (path n) ≠ resolve cwd (path k)) → Isolated (placesFor cwd url path) Plain

/-- Every collection that has been created, fitted and not deleted is found by the next client of the url, whatever
`rocksdb_path` was given. -/
def C88Listed : Prop :=
  ∀ (cwd : List Bytes) (url : Bytes) (path : Bytes → Bytes), url.head? = some slash → ∀ (k : Bytes) (s : Index) (dt : Nat), Plain k →
    listed cwd url (wrun (placesFor cwd url path) World.empty [(k, .fit s dt)]) k = true

/-! ### what holds -/

/-- Partial (missing: names that are not plain file names, explicit paths, clients without url). For every url, every
interleaved history of first inserts, calls, snapshots, crashes, restarts and deletions of any collections with
ordinary names, each collection is in the state its own events alone give. -/
theorem C88_isolated_partial {cwd : List Bytes} {url : Bytes} (hurl : url.head? = some slash) :
    Isolated (placesFor cwd url (clientPath url)) Plain := by
  intro h hp k hk
  exact wrun_see _ k (client_own hurl hk) h (fun x hx hne => client_apart hurl (hp x hx) hk hne) World.empty

theorem noDisk_fit (c dt : Nat) (s : Index) : fitNew ⟨noDisk, c, none⟩ dt s = afterFit s (c + dt) := rfl

theorem crun_append (y : Sys Index) (a b : List CEv) : crun y (a ++ b) = crun (crun y a) b := by
  unfold crun; rw [List.foldl_append]

theorem crun_map (y y' : Sys Index) (evs : List Event) (h : run sem y evs = some y') : crun y (evs.map CEv.ev) = y' := by
  induction evs generalizing y with
  | nil => simp only [run, Option.some.injEq] at h; exact h
  | cons e es ih =>
    unfold run at h
    cases hs : step sem y e with
    | none => rw [hs] at h; simp at h
    | some z =>
      rw [hs] at h
      show crun (cstep y (.ev e)) (es.map CEv.ev) = y'
      unfold cstep
      simp only [hs, Option.getD_some]
      exact ih z (by simpa using h)

/-- The state in which a collection starts over: new, or just deleted on disk. -/
theorem crun_fresh (pre : List CEv) (hpre : pre = [] ∨ pre.getLast? = some (.drop true)) :
    ∃ c, crun ⟨noDisk, 0, none⟩ pre = ⟨noDisk, c, none⟩ := by
  rcases hpre with rfl | h
  · exact ⟨0, rfl⟩
  · obtain ⟨a, rfl⟩ := List.getLast?_eq_some_iff.1 h
    rw [crun_append]
    exact ⟨_, rfl⟩

/-- Whatever the other collections do, the content of a collection is that of its first insert (ever, or after its last
disk deletion) followed by its own acknowledged calls, across its snapshots, crashes and restarts. -/
theorem C88_content {cwd : List Bytes} {url : Bytes} (hurl : url.head? = some slash) (h : List (Bytes × CEv))
    (hp : ∀ x ∈ h, Plain x.1) {k : Bytes} (hk : Plain k) (pre : List CEv) (s : Index) (dt : Nat) (evs : List Event)
    (hpre : pre = [] ∨ pre.getLast? = some (.drop true))
    (hown : (h.filter (fun x => decide (x.1 = k))).map Prod.snd = pre ++ .fit s dt :: evs.map CEv.ev)
    (hok : HistoryOk ((crun ⟨noDisk, 0, none⟩ pre).clock + dt) evs)
    (hclean : CleanRecoveries sem (afterFit s ((crun ⟨noDisk, 0, none⟩ pre).clock + dt)) evs = true) :
    ∃ q, SpecRun sem (s, true) evs q ∧
      Content sem ((wrun (placesFor cwd url (clientPath url)) World.empty h).see (placesFor cwd url (clientPath url)) k) q.1 := by
  rw [C88_isolated_partial hurl h hp k hk, hown, crun_append]
  obtain ⟨c, hc⟩ := crun_fresh pre hpre
  rw [hc] at hok hclean ⊢
  obtain ⟨y, q, h1, h2, h3⟩ := C12_acked_survive_partial sem sem_ok s (c + dt) evs hok hclean
  refine ⟨q, h2, ?_⟩
  show Content sem (crun (fitNew ⟨noDisk, c, none⟩ dt s) (evs.map CEv.ev)) q.1
  rw [noDisk_fit, crun_map _ _ _ h1]
  exact h3

/-- Does the event put a schema in place? The first insert on a closed collection does, and `save` of an open one. -/
def Persists (open_ : Bool) : CEv → Prop
  | .fit _ _ => open_ = false
  | .ev (.checkpoint _) => open_ = true
  | _ => False

theorem keeps_iff (y : Sys Index) (b : Bool) (es : List CEv) : keeps y b es = true ↔
    (b = true ∧ CEv.drop true ∉ es) ∨
    ∃ pre e post, es = pre ++ e :: post ∧ Persists (crun y pre).mem.isSome e ∧ CEv.drop true ∉ post := by
  induction es generalizing y b with
  | nil => simp [keeps]
  | cons e es ih =>
    unfold keeps
    rw [ih]
    have hsplit : (∃ pre e' post, e :: es = pre ++ e' :: post ∧ Persists (crun y pre).mem.isSome e' ∧ CEv.drop true ∉ post) ↔
        (Persists y.mem.isSome e ∧ CEv.drop true ∉ es) ∨
        ∃ pre e' post, es = pre ++ e' :: post ∧ Persists (crun (cstep y e) pre).mem.isSome e' ∧ CEv.drop true ∉ post := by
      constructor
      · rintro ⟨pre, e', post, h1, h2, h3⟩
        cases pre with
        | nil =>
          simp only [List.nil_append, List.cons.injEq] at h1
          obtain ⟨rfl, rfl⟩ := h1
          exact Or.inl ⟨h2, h3⟩
        | cons x pre =>
          simp only [List.cons_append, List.cons.injEq] at h1
          obtain ⟨rfl, h1⟩ := h1
          exact Or.inr ⟨pre, e', post, h1, h2, h3⟩
      · rintro (⟨h2, h3⟩ | ⟨pre, e', post, h1, h2, h3⟩)
        · exact ⟨[], e, es, rfl, h2, h3⟩
        · exact ⟨e :: pre, e', post, by rw [h1]; rfl, h2, h3⟩
    rw [hsplit, ← or_assoc]
    refine or_congr ?_ Iff.rfl
    cases e with
    | fit s dt => cases hm : y.mem <;> cases b <;> simp [keep1, Persists, hm]
    | drop d => cases d <;> simp [keep1, Persists]
    | ev e => cases e <;> cases hm : y.mem <;> cases b <;> simp [keep1, Persists, hm]

/-- The next client of the url finds exactly the collections that had a first insert or a `save` after their last
deletion on disk; nothing else makes a name appear or disappear, in particular not what other collections do. -/
theorem C88_listed_iff {cwd : List Bytes} {url : Bytes} (hurl : url.head? = some slash) (h : List (Bytes × CEv))
    (hp : ∀ x ∈ h, Plain x.1) {k : Bytes} (hk : Plain k) :
    listed cwd url (wrun (placesFor cwd url (clientPath url)) World.empty h) k = true ↔
      ∃ pre e post, (h.filter (fun x => decide (x.1 = k))).map Prod.snd = pre ++ e :: post ∧
        Persists (crun ⟨noDisk, 0, none⟩ pre).mem.isSome e ∧ CEv.drop true ∉ post := by
  unfold listed
  rw [wrun_schema hurl hk h hp World.empty, keeps_iff]
  constructor
  · rintro (⟨h1, _⟩ | h2)
    · cases h1
    · exact h2
  · exact Or.inr

/-- A first insert on an open collection cannot happen, and an event that fails (a `load` that throws, a call on a closed
collection) leaves the collection as it was. -/
theorem C88_failed (y : Sys Index) : (∀ s dt, y.mem.isSome = true → cstep y (.fit s dt) = y) ∧
    ∀ e, step sem y e = none → cstep y (.ev e) = y := by
  constructor
  · intro s dt h
    obtain ⟨m, hm⟩ := Option.isSome_iff_exists.1 h
    unfold cstep
    rw [hm]
  · intro e h
    show (step sem y e).getD y = y
    rw [h]; rfl

example : step sem ⟨noDisk, 3, none⟩ (.recover 1) = none := by decide

/-! ### what does not hold -/

/-- Names that are not plain: the empty name and `.` denote the url itself, `..` its parent, an absolute name itself. -/
theorem C88_odd_dirs {cwd : List Bytes} {url : Bytes} (hurl : url.head? = some slash) :
    collectionDir cwd url [] = resolve cwd url ∧ collectionDir cwd url (str ".") = resolve cwd url ∧
    collectionDir cwd url (str "..") = (resolve cwd url).dropLast ∧
    ∀ p, p.head? = some slash → collectionDir cwd url p = resolve cwd p := by
  refine ⟨?_, ?_, ?_, ?_⟩
  · exact (resolve_join hurl (by simp)).trans rfl
  · exact (resolve_join hurl (by decide)).trans rfl
  · exact (resolve_join hurl (by decide)).trans rfl
  · intro p hpp
    unfold collectionDir join
    rw [if_pos hpp]

/-- `delete_collection` of a collection with the empty name, `.` or `..` removes the data of every collection of the url. -/
theorem C88_delete_removes_all {cwd : List Bytes} {url : Bytes} (hurl : url.head? = some slash) {n : Bytes}
    (hn : n = [] ∨ n = str "." ∨ n = str "..") (w : World) {k : Bytes} (hk : Plain k) :
    let pl := placesFor cwd url (clientPath url)
    ((wstep pl w n (.drop true)).see pl k).disk = noDisk ∧ listed cwd url (wstep pl w n (.drop true)) k = false := by
  obtain ⟨o1, o2, o3, _⟩ := C88_odd_dirs (cwd := cwd) hurl
  obtain ⟨k1, _, _⟩ := client_places (cwd := cwd) hurl hk
  have hpre : ∃ t, collectionDir cwd url n ++ t = resolve cwd url := by
    rcases hn with rfl | rfl | rfl
    · exact ⟨[], by rw [o1, List.append_nil]⟩
    · exact ⟨[], by rw [o2, List.append_nil]⟩
    · rw [o3]; exact List.dropLast_prefix _
  obtain ⟨t, ht⟩ := hpre
  have hd : ∀ x, (collectionDir cwd url n).isPrefixOf (resolve cwd url ++ x) = true := by
    intro x
    rw [List.isPrefixOf_iff_prefix, ← ht, List.append_assoc]
    exact ⟨_, rfl⟩
  refine ⟨?_, ?_⟩
  · simp only [World.see, wstep, rmtree, k1]
    exact if_pos (hd _)
  · simp only [listed, wstep, rmtree]
    exact if_pos (hd _)

/-- A collection with one record. -/
def contentA : Index := ⟨4, 5, [some rowA]⟩
def contentB : Index := ⟨4, 5, [some rowB]⟩

theorem C88_odd_names_refuted : ¬ C88AnyName := by
  intro h
  have := h [] (str "/data") rfl [(str "a", .fit contentA 7), ([], .drop true)] (by simp) (str "a") trivial
  have hd := congrArg (fun y : Sys Index => y.disk.current) this
  have hall := (C88_delete_removes_all (cwd := []) (url := str "/data") rfl (Or.inl rfl)
    (wstep (placesFor [] (str "/data") (clientPath (str "/data"))) World.empty (str "a") (.fit contentA 7))
    (k := str "a") (by decide)).1
  simp only [wrun, List.foldl] at hd
  rw [hall] at hd
  revert hd
  decide

/-- Without a url all collections use one recovery directory. -/
theorem C88_no_url_one_root {cwd : List Bytes} {base : Bytes} (hb : base.head? = some slash) {n k : Bytes} (hn : Plain n)
    (hk : Plain k) : recoveryRoot cwd (defaultPath base n) = recoveryRoot cwd (defaultPath base k) := by
  unfold defaultPath
  rw [recoveryRoot_join hb hn.noslash, recoveryRoot_join hb hk.noslash]

theorem see_fit (pl : Places) {n k : Bytes} (hroot : pl.root k = pl.root n) (hne : k ≠ n) (w : World) (hm : w.mem n = none)
    (s : Index) (dt : Nat) : (wstep pl w n (.fit s dt)).see pl k = ⟨(fitNew (w.see pl n) dt s).disk, w.clock k, w.mem k⟩ ∧
      (wstep pl w n (.fit s dt)).see pl n = fitNew (w.see pl n) dt s := by
  have hc : cstep (w.see pl n) (.fit s dt) = fitNew (w.see pl n) dt s := by
    unfold cstep
    rw [show (w.see pl n).mem = none from hm]
  simp only [wstep, hc]
  generalize fitNew (w.see pl n) dt s = z
  simp [World.see, put, hroot, hne]

theorem shared_view (pl : Places) {a b : Bytes} (hab : a ≠ b) (hroot : pl.root a = pl.root b) (sa sb : Index)
    (ta tb : Nat) (hta : ta < tb) (cut : Nat) :
    (wrun pl World.empty [(a, .fit sa ta), (b, .fit sb tb), (a, .ev (.crash cut))]).see pl a
      = ⟨(fitNew (afterFit sa ta) (tb - ta) sb).disk.crash cut, ta, none⟩ := by
  have hba : b ≠ a := fun e => hab e.symm
  have hf : (fitNew ⟨(afterFit sa ta).disk, 0, none⟩ tb sb).disk = (fitNew (afterFit sa ta) (tb - ta) sb).disk := by
    unfold fitNew fitSteps
    simp only
    rw [show (afterFit sa ta).clock = ta from rfl, show 0 + tb = ta + (tb - ta) by omega]
  obtain ⟨h1, h1'⟩ := see_fit pl (n := a) (k := b) hroot.symm hba World.empty rfl sa ta
  rw [show World.empty.see pl a = ⟨noDisk, 0, none⟩ from rfl, noDisk_fit, Nat.zero_add] at h1 h1'
  rw [show World.empty.clock b = 0 from rfl, show World.empty.mem b = none from rfl] at h1
  show (wstep pl (wstep pl (wstep pl World.empty a (.fit sa ta)) b (.fit sb tb)) a (.ev (.crash cut))).see pl a = _
  generalize wstep pl World.empty a (.fit sa ta) = w1 at h1 h1' ⊢
  have h2 := (see_fit pl (n := b) (k := a) hroot hab w1 (congrArg Sys.mem h1) sb tb).1
  rw [h1, hf, show w1.clock a = ta from congrArg Sys.clock h1', show w1.mem a = some ⟨sa, 1, 0⟩ from congrArg Sys.mem h1'] at h2
  have h3 : ∀ w : World, (wstep pl w a (.ev (.crash cut))).see pl a = cstep (w.see pl a) (.ev (.crash cut)) := by
    intro w
    simp [World.see, wstep, put]
  rw [h3, h2]
  generalize (fitNew (afterFit sa ta) (tb - ta) sb).disk = d
  simp only [cstep, step, Option.getD_some]

/-- Whenever two collections use one recovery directory (no url, or explicit paths with one parent), the second first
insert replaces the data of the first collection: after its next restart it shows the records of the other. -/
theorem C88_shared_root_swaps (pl : Places) {a b : Bytes} (hab : a ≠ b) (hroot : pl.root a = pl.root b) (sa sb : Index)
    (ta tb : Nat) (hta : ta < tb) (htb : tb < 2 ^ 64) (cut : Nat) :
    let w := wrun pl World.empty [(a, .fit sa ta), (b, .fit sb tb), (a, .ev (.crash cut))]
    (w.see pl a).mem = none ∧ Content sem (w.see pl a) sb := by
  have hba : b ≠ a := fun e => hab e.symm
  obtain ⟨G, hi⟩ := fitNew_inv (afterFit_inv sem sa ta (by omega)) (by omega) (dt := tb - ta) (by omega)
    (by show ta + (tb - ta) < _; omega) sb
  obtain ⟨y, q, G', h1, h2, h3, _⟩ := run_inv sem_ok [.crash cut] hi (by simp) (by
      show (ta + (tb - ta)) + _ < _; simp [Event.dt]; omega) (by simp [Event.ticks]) rfl
  have hq : q = (sb, false) := by
    obtain ⟨r, hr, rfl⟩ := h2
    simpa [specNext] using hr
  subst hq
  have hc := h3.content (by simp)
  have hy : y = ⟨(fitNew (afterFit sa ta) (tb - ta) sb).disk.crash cut, ta + (tb - ta), none⟩ :=
    (Option.some.inj h1).symm
  have hw : (wrun pl World.empty [(a, .fit sa ta), (b, .fit sb tb), (a, .ev (.crash cut))]).see pl a
      = ⟨y.disk, ta, none⟩ := by
    rw [hy, shared_view pl hab hroot sa sb ta tb hta cut]
  intro w
  rw [show w.see pl a = _ from hw]
  refine ⟨rfl, ?_⟩
  unfold Content at hc ⊢
  have : y.mem = none := h3.stopped rfl
  rw [this] at hc
  exact hc

theorem swapped_not_isolated (pl : Places) (hroot : pl.root (str "a") = pl.root (str "b")) : ¬ Isolated pl Plain := by
  intro h
  have h1 := h [(str "a", .fit contentA 7), (str "b", .fit contentB 8), (str "a", .ev (.crash 0))]
    (by intro x hx; fin_cases hx <;> decide) (str "a") (by decide)
  have h2 := (C88_shared_root_swaps pl (by decide) hroot contentA contentB 7 8 (by decide) (by decide) 0).2
  rw [show (wrun pl World.empty [(str "a", .fit contentA 7), (str "b", .fit contentB 8), (str "a", .ev (.crash 0))]).see pl (str "a")
    = crun ⟨noDisk, 0, none⟩ [.fit contentA 7, .ev (.crash 0)] from h1] at h2
  obtain ⟨m, b, h3, h4⟩ := h2
  have h5 : (loadMem sem (crun ⟨noDisk, 0, none⟩ [.fit contentA 7, .ev (.crash 0)]).disk).map (fun p => p.1.state)
      = some contentA := by decide +kernel
  rw [show loadMem sem (crun ⟨noDisk, 0, none⟩ [.fit contentA 7, .ev (.crash 0)]).disk = some (m, b) from h3] at h5
  simp only [Option.map_some, Option.some.injEq] at h5
  rw [h5] at h4
  revert h4
  decide

/-- Two collections of a client without url: the first shows the records of the second after a restart. -/
theorem C88_no_url_refuted : ¬ C88NoUrl := by
  intro h
  exact swapped_not_isolated _ (C88_no_url_one_root (cwd := []) (base := str "/RocksDB") rfl (by decide) (by decide))
    (h [] (str "/RocksDB") rfl)

/-- Different explicit paths with one parent directory do the same. -/
theorem C88_own_path_refuted : ¬ C88OwnPath := by
  intro h
  refine swapped_not_isolated (placesFor [] (str "/data") (join (str "/fast"))) ?_ (h [] (str "/data") (join (str "/fast")) rfl ?_)
  · exact C88_no_url_one_root (cwd := []) (base := str "/fast") rfl (by decide) (by decide)
  · intro n k hn hk hne e
    rw [resolve_plain rfl hn, resolve_plain rfl hk] at e
    have := List.append_cancel_left e
    simp only [List.cons.injEq, and_true] at this
    exact hne this

/-- With an explicit `rocksdb_path` outside the url the schema of the first insert is written next to that path: the
next client does not find the collection (until `save_collection`). -/
theorem C88_listed_refuted : ¬ C88Listed := by
  intro h
  have := h [] (str "/data") (join (str "/fast")) rfl (str "a") contentA 7 (by decide)
  revert this
  decide

/-! ### examples -/

/-- Two collections under one client: `a` is filled, `b` is filled, deleted on disk and filled again, `a` crashes and
restarts. -/
def sampleWorld : List (Bytes × CEv) :=
  [(str "a", .fit contentA 7), (str "b", .fit contentA 7), (str "a", .ev (.checkpoint 1)), (str "b", .drop true),
   (str "a", .ev (.crash 0)), (str "b", .fit contentB 9), (str "b", .ev (.checkpoint 1)), (str "a", .ev (.recover 1))]

example : (∀ x ∈ sampleWorld, Plain x.1) ∧ (str "/data").head? = some slash := by decide

example : (sampleWorld.filter (fun x => decide (x.1 = str "b"))).map Prod.snd =
    [.fit contentA 7, .drop true] ++ .fit contentB 9 :: [Event.checkpoint 1].map CEv.ev ∧
    HistoryOk ((crun ⟨noDisk, 0, none⟩ [.fit contentA 7, .drop true]).clock + 9) [.checkpoint 1] ∧
    CleanRecoveries sem (afterFit contentB ((crun ⟨noDisk, 0, none⟩ [.fit contentA 7, .drop true]).clock + 9)) [.checkpoint 1] = true := by
  refine ⟨by decide, by decide +kernel, rfl⟩

end Alaya.Client
