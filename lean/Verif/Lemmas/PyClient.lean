import Verif.Model.PyClient
import Verif.Lemmas.PyReindex

namespace Alaya.Client
open Recovery Py

/-! ### paths -/

theorem segs_ne_nil (p : Bytes) : segs p ≠ [] := by
  cases p with
  | nil => simp [segs]
  | cons c cs =>
    unfold segs
    split
    · simp
    · split <;> simp

theorem segs_cons (c : UInt8) (cs : Bytes) : segs (c :: cs) = if c = slash then [] :: segs cs
    else match segs cs with
      | [] => [[c]]
      | s :: r => (c :: s) :: r := by
  conv => lhs; unfold segs
  rfl

theorem walk_cons (d : List Bytes) (s : Bytes) (r : List Bytes) : walk d (s :: r) = if s = [] ∨ s = str "." then walk d r
    else if s = str ".." then walk d.dropLast r
    else walk (d ++ [s]) r := by
  conv => lhs; unfold walk

theorem segs_append_slash (a b : Bytes) : segs (a ++ slash :: b) = segs a ++ segs b := by
  induction a with
  | nil =>
    rw [List.nil_append]
    conv => lhs; unfold segs
    rw [if_pos rfl]
    rfl
  | cons c cs ih =>
    rw [List.cons_append, segs_cons, segs_cons]
    by_cases hc : c = slash
    · rw [if_pos hc, if_pos hc, ih]; rfl
    · rw [if_neg hc, if_neg hc, ih]
      cases hs : segs cs with
      | nil => exact absurd hs (segs_ne_nil cs)
      | cons s r => rfl

theorem segs_noslash {p : Bytes} (h : slash ∉ p) : segs p = [p] := by
  induction p with
  | nil => rfl
  | cons c cs ih =>
    unfold segs
    rw [if_neg (by intro e; exact h (by simp [e])), ih (fun e => h (by simp [e]))]

theorem walk_append (d : List Bytes) (a b : List Bytes) : walk d (a ++ b) = walk (walk d a) b := by
  induction a generalizing d with
  | nil => rfl
  | cons s r ih =>
    rw [List.cons_append, walk_cons, walk_cons]
    split
    · exact ih d
    · split
      · exact ih _
      · exact ih _

theorem join_last {a b : Bytes} (hb : b.head? ≠ some slash) (ha : a.getLast? = some slash) : join a b = a ++ b := by
  unfold join
  rw [if_neg hb, if_pos (Or.inr ha)]

theorem join_nolast {a b : Bytes} (hb : b.head? ≠ some slash) (hne : a ≠ []) (ha : ¬ a.getLast? = some slash) :
    join a b = a ++ [slash] ++ b := by
  unfold join
  rw [if_neg hb, if_neg (by rintro (e | e); exact hne e; exact ha e)]

/-- An ordinary name: not empty, no separator, not `.` or `..`. -/
structure Plain (n : Bytes) : Prop where
  ne : n ≠ []
  noslash : slash ∉ n
  dot : n ≠ str "."
  dots : n ≠ str ".."

instance (n : Bytes) : Decidable (Plain n) :=
  decidable_of_iff (n ≠ [] ∧ slash ∉ n ∧ n ≠ str "." ∧ n ≠ str "..") ⟨fun h => ⟨h.1, h.2.1, h.2.2.1, h.2.2.2⟩,
    fun h => ⟨h.ne, h.noslash, h.dot, h.dots⟩⟩

theorem walk_plain {n : Bytes} (h : Plain n) (d : List Bytes) : walk d [n] = d ++ [n] := by
  unfold walk
  rw [if_neg (by rintro (e | e); exact h.ne e; exact h.dot e), if_neg h.dots]
  rfl

theorem walk_nil_seg (d : List Bytes) : walk d [[]] = d := by
  unfold walk; rw [if_pos (Or.inl rfl)]; rfl

/-- Joining an ordinary name to an absolute path. -/
theorem resolve_join {cwd : List Bytes} {url n : Bytes} (hurl : url.head? = some slash) (hn : n.head? ≠ some slash) :
    resolve cwd (join url n) = walk (resolve cwd url) (segs n) := by
  have hne : url ≠ [] := by rintro rfl; cases hurl
  by_cases hl : url.getLast? = some slash
  · rw [join_last hn hl]
    unfold resolve
    obtain ⟨pre, rfl⟩ : ∃ pre, url = pre ++ [slash] := by
      obtain ⟨pre, h⟩ := List.getLast?_eq_some_iff.1 hl
      exact ⟨pre, h⟩
    have hh : (pre ++ [slash] ++ n).head? = some slash := by
      cases pre with
      | nil => rfl
      | cons c cs => simpa using hurl
    rw [if_pos hh, if_pos hurl, List.append_assoc]
    show walk [] (segs (pre ++ slash :: n)) = walk (walk [] (segs (pre ++ slash :: []))) (segs n)
    rw [segs_append_slash, segs_append_slash, walk_append, walk_append]
    show _ = walk (walk (walk [] (segs pre)) [[]]) (segs n)
    rw [walk_nil_seg]
  · rw [join_nolast hn hne hl]
    unfold resolve
    have hh : (url ++ [slash] ++ n).head? = some slash := by
      cases url with
      | nil => exact absurd rfl hne
      | cons c cs => simpa using hurl
    rw [if_pos hh, if_pos hurl, List.append_assoc]
    show walk [] (segs (url ++ slash :: n)) = _
    rw [segs_append_slash, walk_append]

theorem plain_head {n : Bytes} (h : Plain n) : n.head? ≠ some slash := by
  intro e
  cases n with
  | nil => cases e
  | cons c cs =>
    simp only [List.head?_cons, Option.some.injEq] at e
    exact h.noslash (by simp [e])

theorem resolve_plain {cwd : List Bytes} {url n : Bytes} (hurl : url.head? = some slash) (hn : Plain n) :
    resolve cwd (join url n) = resolve cwd url ++ [n] := by
  rw [resolve_join hurl (plain_head hn), segs_noslash hn.noslash, walk_plain hn]

theorem join_head {a b : Bytes} (h : a.head? = some slash) : (join a b).head? = some slash := by
  unfold join
  split
  · assumption
  · cases a with
    | nil => cases h
    | cons c cs =>
      split
      · simpa using h
      · simpa using h

theorem parentDir_noslash {q r : Bytes} (h : slash ∉ r) : parentDir (q ++ slash :: r) = q ++ [slash] := by
  unfold parentDir
  rw [List.reverse_append, List.reverse_cons, List.append_assoc, List.dropWhile_append_of_pos]
  · simp
  · intro c hc
    simp only [ne_eq, decide_eq_true_eq]
    rintro rfl
    exact h (List.mem_reverse.1 hc)

/-- `join q r` for an absolute `q`, as a prefix ending with a separator and `r`. -/
theorem join_split {q r : Bytes} (hq : q.head? = some slash) (hr : r.head? ≠ some slash) :
    ∃ p, join q r = p ++ slash :: r ∧ ∀ cwd, resolve cwd (p ++ [slash]) = resolve cwd q := by
  have hne : q ≠ [] := by rintro rfl; cases hq
  unfold join
  rw [if_neg hr]
  by_cases hl : q.getLast? = some slash
  · rw [if_pos (Or.inr hl)]
    obtain ⟨pre, rfl⟩ := List.getLast?_eq_some_iff.1 hl
    exact ⟨pre, by simp, fun cwd => rfl⟩
  · rw [if_neg (by rintro (e | e); exact hne e; exact hl e)]
    refine ⟨q, by simp, fun cwd => ?_⟩
    have := resolve_join (cwd := cwd) (n := []) hq (by simp)
    unfold join at this
    rw [if_neg (by simp), if_neg (by rintro (e | e); exact hne e; exact hl e)] at this
    rw [List.append_nil] at this
    rw [this]
    exact walk_nil_seg _

theorem parentDir_join {cwd : List Bytes} {q r : Bytes} (hq : q.head? = some slash) (hr : slash ∉ r) :
    (parentDir (join q r)).head? = some slash ∧ (parentDir (join q r)).getLast? = some slash ∧
      resolve cwd (parentDir (join q r)) = resolve cwd q := by
  have hrh : r.head? ≠ some slash := by
    cases r with
    | nil => simp
    | cons c cs =>
      intro e
      simp only [List.head?_cons, Option.some.injEq] at e
      exact hr (by simp [e])
  obtain ⟨p, h1, h2⟩ := join_split hq hrh
  have hh := join_head (b := r) hq
  rw [h1] at hh
  rw [h1, parentDir_noslash hr]
  refine ⟨?_, by simp, h2 cwd⟩
  cases p with
  | nil => rfl
  | cons c cs => simpa using hh

theorem plain_recovery : Plain (str "recovery") := by decide
theorem plain_rocksdb : Plain (str "rocksdb") := by decide

/-- The recovery directory lies beside the last component of the path. -/
theorem recoveryRoot_join {cwd : List Bytes} {q r : Bytes} (hq : q.head? = some slash) (hr : slash ∉ r) :
    recoveryRoot cwd (join q r) = resolve cwd q ++ [str "recovery"] := by
  obtain ⟨h1, h2, h3⟩ := parentDir_join (cwd := cwd) hq hr
  have := resolve_plain (cwd := cwd) h1 plain_recovery
  rw [h3] at this
  rw [← this, join_last (by decide) h2]
  rfl

/-- Where the files of an ordinary collection of a client are. -/
theorem client_places {cwd : List Bytes} {url n : Bytes} (hurl : url.head? = some slash) (hn : Plain n) :
    (placesFor cwd url (clientPath url)).root n = resolve cwd url ++ [n, str "recovery"] ∧
    (placesFor cwd url (clientPath url)).schemaDir n = resolve cwd url ++ [n] ∧
    (placesFor cwd url (clientPath url)).dir n = resolve cwd url ++ [n] := by
  have hj := join_head (b := n) hurl
  refine ⟨?_, ?_, resolve_plain hurl hn⟩
  · show recoveryRoot cwd (join (join url n) (str "rocksdb")) = _
    rw [recoveryRoot_join hj (by decide), resolve_plain hurl hn, List.append_assoc]
    rfl
  · show resolve cwd (parentDir (join (join url n) (str "rocksdb"))) = _
    rw [(parentDir_join hj (by decide)).2.2, resolve_plain hurl hn]

/-! ### one collection among others -/

/-- The places of `k` are out of reach of `n`. -/
structure Apart (pl : Places) (n k : Bytes) : Prop where
  root : pl.root k ≠ pl.root n
  gone : (pl.dir n).isPrefixOf (pl.root k) = false

theorem see_same (pl : Places) (w : World) (n : Bytes) (e : CEv) (hd : (pl.dir n).isPrefixOf (pl.root n) = true) :
    (wstep pl w n e).see pl n = cstep (w.see pl n) e := by
  cases e with
  | fit s dt => simp [World.see, wstep, put]
  | drop b =>
    cases b with
    | false => simp [World.see, wstep, cstep]
    | true => simp [World.see, wstep, cstep, rmtree, hd]
  | ev e => cases e <;> simp [World.see, wstep, put]

theorem see_other (pl : Places) (w : World) {n k : Bytes} (e : CEv) (hk : k ≠ n) (ha : Apart pl n k) :
    (wstep pl w n e).see pl k = w.see pl k := by
  have hr := ha.root
  have hg := ha.gone
  cases e with
  | fit s dt => simp [World.see, wstep, put, hr, hk]
  | drop b =>
    cases b with
    | false => simp [World.see, wstep, hk]
    | true => simp [World.see, wstep, rmtree, hg, hk]
  | ev e => cases e <;> simp [World.see, wstep, put, hr, hk]

/-- The events of one collection in an interleaved history. -/
def own (k : Bytes) (h : List (Bytes × CEv)) : List CEv := (h.filter (fun x => decide (x.1 = k))).map Prod.snd

theorem own_cons (k : Bytes) (x : Bytes × CEv) (h : List (Bytes × CEv)) :
    own k (x :: h) = if x.1 = k then x.2 :: own k h else own k h := by
  unfold own
  rw [List.filter_cons]
  by_cases hx : x.1 = k
  · rw [if_pos (by simpa using hx), if_pos hx]; rfl
  · rw [if_neg (by simpa using hx), if_neg hx]

theorem wrun_see (pl : Places) (k : Bytes) (hd : (pl.dir k).isPrefixOf (pl.root k) = true) (h : List (Bytes × CEv))
    (ha : ∀ x ∈ h, x.1 ≠ k → Apart pl x.1 k) (w : World) : (wrun pl w h).see pl k = crun (w.see pl k) (own k h) := by
  induction h generalizing w with
  | nil => rfl
  | cons x h ih =>
    show (wrun pl (wstep pl w x.1 x.2) h).see pl k = _
    rw [ih (fun y hy => ha y (by simp [hy])), own_cons]
    by_cases hx : x.1 = k
    · rw [if_pos hx]
      obtain ⟨n, e⟩ := x
      simp only at hx
      subst hx
      rw [see_same pl w n e hd]
      rfl
    · rw [if_neg hx, see_other pl w x.2 (fun e => hx e.symm) (ha x (by simp) hx)]

theorem isPrefixOf_false {a b : List Bytes} (h : ¬ a <+: b) : a.isPrefixOf b = false := by
  cases hb : a.isPrefixOf b with
  | false => rfl
  | true => exact absurd (List.isPrefixOf_iff_prefix.1 hb) h

theorem client_apart {cwd : List Bytes} {url n k : Bytes} (hurl : url.head? = some slash) (hn : Plain n) (hk : Plain k)
    (hne : n ≠ k) : Apart (placesFor cwd url (clientPath url)) n k := by
  obtain ⟨h1, _, h3⟩ := client_places (cwd := cwd) hurl hn
  obtain ⟨k1, _, _⟩ := client_places (cwd := cwd) hurl hk
  refine ⟨?_, ?_⟩
  · rw [h1, k1]
    intro e
    have := List.append_cancel_left e
    simp only [List.cons.injEq] at this
    exact hne this.1.symm
  · rw [h3, k1]
    apply isPrefixOf_false
    rintro ⟨t, e⟩
    rw [List.append_assoc] at e
    have := List.append_cancel_left e
    simp only [List.cons_append, List.cons.injEq] at this
    exact hne this.1

theorem client_own {cwd : List Bytes} {url k : Bytes} (hurl : url.head? = some slash) (hk : Plain k) :
    ((placesFor cwd url (clientPath url)).dir k).isPrefixOf ((placesFor cwd url (clientPath url)).root k) = true := by
  obtain ⟨k1, _, k3⟩ := client_places (cwd := cwd) hurl hk
  rw [k1, k3, List.isPrefixOf_iff_prefix]
  exact ⟨[str "recovery"], by simp⟩

/-! ### schema files -/

/-- What an event does to the schema of the collection. -/
def keep1 (y : Sys Index) (b : Bool) : CEv → Bool
  | .drop true => false
  | .drop false => b
  | .fit _ _ => b || y.mem.isNone
  | .ev (.checkpoint _) => b || y.mem.isSome
  | .ev _ => b

def keeps (y : Sys Index) (b : Bool) : List CEv → Bool
  | [] => b
  | e :: es => keeps (cstep y e) (keep1 y b e) es

theorem schema_same {cwd : List Bytes} {url k : Bytes} (hurl : url.head? = some slash) (hk : Plain k) (w : World) (e : CEv) :
    (wstep (placesFor cwd url (clientPath url)) w k e).schema (resolve cwd url ++ [k])
      = keep1 (w.see (placesFor cwd url (clientPath url)) k) (w.schema (resolve cwd url ++ [k])) e := by
  obtain ⟨k1, k2, k3⟩ := client_places (cwd := cwd) hurl hk
  have hm : (w.see (placesFor cwd url (clientPath url)) k).mem = w.mem k := rfl
  cases e with
  | fit s dt =>
    simp only [wstep, keep1, hm, k2]
    cases w.mem k with
    | none => simp [put]
    | some m => simp
  | drop b =>
    cases b with
    | false => rfl
    | true =>
      simp only [wstep, keep1, k3, rmtree]
      rw [if_pos (List.isPrefixOf_iff_prefix.2 (List.prefix_refl _))]
  | ev e =>
    cases e with
    | checkpoint dt =>
      simp only [wstep, keep1, hm, k3]
      cases w.mem k with
      | none => simp
      | some m => simp [put]
    | _ => rfl

theorem schema_other {cwd : List Bytes} {url n k : Bytes} (hurl : url.head? = some slash) (hn : Plain n) (hne : n ≠ k)
    (w : World) (e : CEv) :
    (wstep (placesFor cwd url (clientPath url)) w n e).schema (resolve cwd url ++ [k]) = w.schema (resolve cwd url ++ [k]) := by
  obtain ⟨k1, k2, k3⟩ := client_places (cwd := cwd) hurl hn
  have hne' : ¬ resolve cwd url ++ [k] = resolve cwd url ++ [n] := by
    intro e
    have := List.append_cancel_left e
    simp only [List.cons.injEq, and_true] at this
    exact hne this.symm
  cases e with
  | fit s dt =>
    simp only [wstep, k2]
    cases w.mem n with
    | none => simp only [Option.isSome_none, Bool.false_eq_true, if_false, put]; rw [if_neg hne']
    | some m => simp
  | drop b =>
    cases b with
    | false => rfl
    | true =>
      simp only [wstep, k3, rmtree]
      rw [isPrefixOf_false, if_neg (by decide)]
      rintro ⟨t, e⟩
      rw [List.append_assoc] at e
      have := List.append_cancel_left e
      simp only [List.cons_append, List.cons.injEq] at this
      exact hne this.1
  | ev e =>
    cases e with
    | checkpoint dt =>
      simp only [wstep, k3]
      cases w.mem n with
      | none => simp
      | some m => simp only [Option.isSome_some, if_true, put]; rw [if_neg hne']
    | _ => rfl

theorem wrun_schema {cwd : List Bytes} {url k : Bytes} (hurl : url.head? = some slash) (hk : Plain k) (h : List (Bytes × CEv))
    (hp : ∀ x ∈ h, Plain x.1) (w : World) :
    (wrun (placesFor cwd url (clientPath url)) w h).schema (resolve cwd url ++ [k])
      = keeps (w.see (placesFor cwd url (clientPath url)) k) (w.schema (resolve cwd url ++ [k])) (own k h) := by
  induction h generalizing w with
  | nil => rfl
  | cons x h ih =>
    show (wrun _ (wstep _ w x.1 x.2) h).schema _ = _
    rw [ih (fun y hy => hp y (by simp [hy])), own_cons]
    by_cases hx : x.1 = k
    · rw [if_pos hx]
      obtain ⟨n, e⟩ := x
      simp only at hx
      subst hx
      rw [see_same _ w n e (client_own hurl hk), schema_same hurl hk]
      rfl
    · rw [if_neg hx, see_other _ w x.2 (fun e => hx e.symm) (client_apart hurl (hp x (by simp)) hk hx),
        schema_other hurl (hp x (by simp)) hx]

end Alaya.Client
