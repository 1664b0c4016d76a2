import Verif.Lemmas.RaBitQLoop
import Verif.Spec.RaBitQSearch

namespace Alaya.RSearch
open Alaya Alaya.Pools Alaya.Spec Alaya.Hybrid Alaya.Hybrid.Spec

/-! ### The end of the main loop -/

theorem SInv.expanded {σ : Type} {dmax : Int} {I : Idx} {ef : Nat} {Rep : σ → List Nat → Prop} {E : List Nat} {s : St σ} (hI : IdxOk I)
    (h : SInv dmax dmax I ef Rep E s) (hn : s.pool.hasNext = false) : Spec.Expanded I.rows I.est dmax I.ep ef E := by
  have hp := h.lin.pool
  have hcur : s.pool.cur = s.pool.size := by
    have h1 : ¬ s.pool.cur < s.pool.size := by simpa [SPool.hasNext] using hn
    have := hp.cur.1
    rw [hp.elen] at this
    omega
  have hall : ∀ e ∈ s.pool.ents, chk e = true := by
    intro e he
    obtain ⟨i, hi⟩ := List.getElem?_of_mem he
    have hil := (List.getElem?_eq_some_iff.mp hi).1
    rw [hp.elen] at hil
    exact hp.cur.2.1 i e (by omega) hi
  have hin : ∀ e ∈ s.pool.ents, getId e.1 ∈ E := fun e he => h.lin.chkd e he (hall e he)
  refine ⟨h.lin.nodup, h.lin.valid, ?_, h.reach, ?_⟩
  · rcases h.ent with hh | ⟨-, hh, -⟩
    · exact hh
    · rw [hn] at hh; cases hh
  · intro c hc i v hed
    rcases h.cov c hc i v hed with hd | hd | hd | hd
    · exact .inr (.inl hd)
    · exact .inl hd
    · left
      have := hin _ hd
      have hv := Edge.lt hI hed
      rwa [getId_small (by have := hI.small; omega)] at this
    · right; right
      refine ⟨s.pool.ents.map bare, by rw [List.length_map, hp.elen, hd.1], h.many, ?_⟩
      intro x hx
      obtain ⟨e, he, rfl⟩ := List.mem_map.mp hx
      exact ⟨hin e he, hd.2 e he⟩

theorem loop_spec {σ : Type} {V : VOps σ} {d0 dmax : Int} {I : Idx} {Rep : σ → List Nat → Prop} (hI : IdxOk I) (hV : VOk V I.rows.length Rep)
    {ef D k : Nat} (hef : 0 < ef) (hk : 0 < k) (hD : ∀ row ∈ I.rows, row.length ≤ D) (fuel : Nat) : ∀ {E : List Nat} {s : St σ} {res : SBuf},
    SInv d0 dmax I ef Rep E s → BInv dmax I.exact k res E → meas I D E s ≤ fuel →
    ∃ s' res' E', loop V dmax I fuel s res = some (s', res') ∧ SInv d0 dmax I ef Rep E' s' ∧ BInv dmax I.exact k res' E' ∧
      s'.pool.hasNext = false := by
  have done : ∀ {s : St σ} {res : SBuf} (f : Nat), s.pool.hasNext = false → loop V dmax I f s res = some (s, res) := by
    intro s res f hu
    cases f with
    | zero => unfold loop; rw [if_neg (by rw [hu]; simp)]
    | succ f => unfold loop; rw [if_neg (by rw [hu]; simp)]
  induction fuel with
  | zero =>
    intro E s res h hb hf
    cases hu : s.pool.hasNext with
    | false => exact ⟨s, res, E, done _ hu, h, hb, hu⟩
    | true =>
      obtain ⟨s', r, -, h2⟩ := step_spec hI hV hef hD h hu
      rcases h2 with ⟨-, -, h2⟩ | ⟨c, -, -, h2⟩ <;> omega
  | succ fuel ih =>
    intro E s res h hb hf
    cases hu : s.pool.hasNext with
    | false => exact ⟨s, res, E, done _ hu, h, hb, hu⟩
    | true =>
      obtain ⟨s', r, h1, h2⟩ := step_spec hI hV hef hD h hu
      unfold loop
      rw [if_pos hu, h1]
      rcases h2 with ⟨rfl, h3, h4⟩ | ⟨c, rfl, h3, h4⟩
      · exact ih h3 hb (by omega)
      · obtain ⟨res', b1, b2⟩ := hb.insert hk c
        simp only
        rw [b1]
        exact ih h3 b2 (by omega)

/-! ### The supplement -/

/-- The nodes `S` are marked and have been offered to the result buffer. -/
structure RInv {σ : Type} (dmax : Int) (I : Idx) (k : Nat) (Rep : σ → List Nat → Prop) (vis : σ) (res : SBuf) (S : List Nat) : Prop where
  rep : Rep vis S
  buf : BInv dmax I.exact k res S
  nodup : S.Nodup
  valid : ∀ v ∈ S, v < I.rows.length

theorem suppRow_spec {σ : Type} {V : VOps σ} {dmax : Int} {I : Idx} {Rep : σ → List Nat → Prop} (hV : VOk V I.rows.length Rep)
    {k : Nat} (hk : 0 < k) (row : List Nat) : ∀ {vis : σ} {res : SBuf} {S : List Nat}, (∀ v ∈ row, v < I.rows.length) →
    RInv dmax I k Rep vis res S → ∃ vis' res' S', suppRow V dmax I row vis res = some (vis', res') ∧ RInv dmax I k Rep vis' res' S' ∧
      (∀ v ∈ S, v ∈ S') ∧ (∀ v ∈ row, v ∈ S') ∧ (∀ v ∈ S', v ∈ S ∨ v ∈ row) := by
  induction row with
  | nil => intro vis res S _ h; exact ⟨vis, res, S, rfl, h, fun v hv => hv, by simp, fun v hv => .inl hv⟩
  | cons nb nbs ih =>
    intro vis res S hrow h
    have hnb := hrow nb (by simp)
    have hnbs : ∀ v ∈ nbs, v < I.rows.length := fun v hv => hrow v (by simp [hv])
    have hget := hV.get h.rep hnb
    unfold suppRow
    rw [hget]
    by_cases hin : nb ∈ S
    · rw [decide_eq_true hin]
      obtain ⟨vis', res', S', e1, e2, e3, e4, e5⟩ := ih hnbs h
      refine ⟨vis', res', S', e1, e2, e3, ?_, ?_⟩
      · intro v hv
        rcases List.mem_cons.mp hv with rfl | hv
        · exact e3 _ hin
        · exact e4 v hv
      · intro v hv
        rcases e5 v hv with hv | hv
        · exact .inl hv
        · exact .inr (by simp [hv])
    · rw [decide_eq_false hin]
      obtain ⟨vis1, v1, v2⟩ := hV.set h.rep hnb
      obtain ⟨res1, b1, b2⟩ := h.buf.insert hk nb
      simp only
      rw [v1, b1]
      simp only
      have h1 : RInv dmax I k Rep vis1 res1 (S ++ [nb]) := by
        refine ⟨v2, b2, ?_, ?_⟩
        · rw [List.nodup_append]
          refine ⟨h.nodup, by simp, ?_⟩
          intro a ha b hb hab
          rw [List.mem_singleton.mp hb] at hab
          rw [hab] at ha
          exact hin ha
        · intro v hv
          rcases List.mem_append.mp hv with hv | hv
          · exact h.valid v hv
          · rw [List.mem_singleton.mp hv]; exact hnb
      obtain ⟨vis', res', S', e1, e2, e3, e4, e5⟩ := ih hnbs h1
      refine ⟨vis', res', S', e1, e2, fun v hv => e3 v (by simp [hv]), ?_, ?_⟩
      · intro v hv
        rcases List.mem_cons.mp hv with rfl | hv
        · exact e3 _ (by simp)
        · exact e4 v hv
      · intro v hv
        rcases e5 v hv with hv | hv
        · rcases List.mem_append.mp hv with hv | hv
          · exact .inl hv
          · exact .inr (by simp [List.mem_singleton.mp hv])
        · exact .inr (by simp [hv])

theorem supp_spec {σ : Type} {V : VOps σ} {dmax : Int} {I : Idx} {Rep : σ → List Nat → Prop} (hI : IdxOk I) (hV : VOk V I.rows.length Rep)
    {k : Nat} (hk : 0 < k) (seeds : List Nat) : ∀ {vis : σ} {res : SBuf} {S : List Nat}, (∀ v ∈ seeds, v < I.rows.length) →
    RInv dmax I k Rep vis res S → ∃ vis' res' S', supp V dmax I seeds vis res = some (vis', res') ∧ RInv dmax I k Rep vis' res' S' ∧
      (∀ v ∈ S, v ∈ S') ∧ (res'.size < k → ∀ c ∈ seeds, ∀ i v, Spec.Edge I.rows c i v → v ∈ S') ∧
      (∀ v ∈ S', v ∈ S ∨ ∃ c ∈ seeds, ∃ i, Spec.Edge I.rows c i v) := by
  induction seeds with
  | nil => intro vis res S _ h; exact ⟨vis, res, S, rfl, h, fun v hv => hv, by simp, fun v hv => .inl hv⟩
  | cons c cs ih =>
    intro vis res S hs h
    obtain ⟨row, hrow⟩ : ∃ row, I.rows[c]? = some row := ⟨_, List.getElem?_eq_getElem (hs c (by simp))⟩
    obtain ⟨vis1, res1, S1, e1, e2, e3, e4, e5⟩ := suppRow_spec hV hk row (hI.edges row (List.mem_of_getElem? hrow)) h
    have hnear : ∀ v ∈ S1, v ∈ S ∨ ∃ c' ∈ c :: cs, ∃ i, Spec.Edge I.rows c' i v := by
      intro v hv
      rcases e5 v hv with hv | hv
      · exact .inl hv
      · obtain ⟨i, hi⟩ := List.getElem?_of_mem hv
        exact .inr ⟨c, by simp, i, row, hrow, hi⟩
    unfold supp
    rw [hrow]
    simp only
    rw [e1]
    simp only
    by_cases hf : res1.size = res1.cap
    · rw [if_pos hf]
      refine ⟨vis1, res1, S1, rfl, e2, e3, ?_, hnear⟩
      intro hlt
      have := e2.buf.hcap
      omega
    · rw [if_neg hf]
      obtain ⟨vis', res', S', f1, f2, f3, f4, f5⟩ := ih (fun v hv => hs v (by simp [hv])) e2
      refine ⟨vis', res', S', f1, f2, fun v hv => f3 v (e3 v hv), ?_, ?_⟩
      · intro hlt c' hc' i v hed
        rcases List.mem_cons.mp hc' with rfl | hc'
        · obtain ⟨row', r1, r2⟩ := hed
          rw [hrow] at r1
          cases r1
          exact f3 v (e4 v (List.mem_of_getElem? r2))
        · exact f4 hlt c' hc' i v hed
      · intro v hv
        rcases f5 v hv with hv | ⟨c', hc', i, hi⟩
        · exact hnear v hv
        · exact .inr ⟨c', by simp [hc'], i, hi⟩

/-! ### The iterator -/

theorem collectRow_spec {n : Nat} {vis : List Bool} {E : List Nat} (hv : BRep n vis E) (row : List Nat) : ∀ (acc : List Nat), (∀ v ∈ row, v < n) →
    acc.Nodup → ∃ acc', collectRow vis row acc = some acc' ∧ acc'.Nodup ∧ ∀ v, v ∈ acc' ↔ v ∈ acc ∨ (v ∈ row ∧ v ∉ E) := by
  induction row with
  | nil => intro acc _ h; exact ⟨acc, rfl, h, by simp⟩
  | cons nb nbs ih =>
    intro acc hr h
    have hget := hv.2 nb (hr nb (by simp))
    have hr' : ∀ v ∈ nbs, v < n := fun v hv => hr v (by simp [hv])
    unfold collectRow
    rw [hget]
    by_cases hin : nb ∈ E
    · rw [decide_eq_true hin]
      obtain ⟨acc', e1, e2, e3⟩ := ih acc hr' h
      refine ⟨acc', e1, e2, ?_⟩
      intro v
      rw [e3 v, List.mem_cons]
      constructor
      · rintro (a | ⟨a, b⟩)
        · exact .inl a
        · exact .inr ⟨.inr a, b⟩
      · rintro (a | ⟨rfl | a, b⟩)
        · exact .inl a
        · exact absurd hin b
        · exact .inr ⟨a, b⟩
    · rw [decide_eq_false hin]
      simp only
      have hnd : (if nb ∈ acc then acc else acc ++ [nb]).Nodup := by
        split
        · exact h
        · rename_i hna
          rw [List.nodup_append]
          refine ⟨h, by simp, ?_⟩
          intro a ha b hb hab
          rw [List.mem_singleton.mp hb] at hab
          rw [hab] at ha
          exact hna ha
      have hm : ∀ v, v ∈ (if nb ∈ acc then acc else acc ++ [nb]) ↔ v ∈ acc ∨ v = nb := by
        intro v
        split
        · rename_i hna
          constructor
          · exact .inl
          · rintro (a | rfl)
            · exact a
            · exact hna
        · simp
      obtain ⟨acc', e1, e2, e3⟩ := ih _ hr' hnd
      refine ⟨acc', e1, e2, ?_⟩
      intro v
      rw [e3 v, hm v, List.mem_cons]
      constructor
      · rintro ((a | rfl) | ⟨a, b⟩)
        · exact .inl a
        · exact .inr ⟨.inl rfl, hin⟩
        · exact .inr ⟨.inr a, b⟩
      · rintro (a | ⟨rfl | a, b⟩)
        · exact .inl (.inl a)
        · exact .inl (.inr rfl)
        · exact .inr ⟨a, b⟩

theorem collect_spec {I : Idx} (hI : IdxOk I) {vis : List Bool} {E : List Nat} (hv : BRep I.rows.length vis E) (cs : List Nat) :
    ∀ (acc : List Nat), (∀ c ∈ cs, c < I.rows.length) → acc.Nodup →
    ∃ L, collect I vis cs acc = some L ∧ L.Nodup ∧ ∀ v, v ∈ L ↔ v ∈ acc ∨ ((∃ c ∈ cs, ∃ i, Spec.Edge I.rows c i v) ∧ v ∉ E) := by
  induction cs with
  | nil => intro acc _ h; exact ⟨acc, rfl, h, by simp⟩
  | cons c cs ih =>
    intro acc hc h
    obtain ⟨row, hrow⟩ : ∃ row, I.rows[c]? = some row := ⟨_, List.getElem?_eq_getElem (hc c (by simp))⟩
    obtain ⟨a1, e1, e2, e3⟩ := collectRow_spec hv row acc (hI.edges row (List.mem_of_getElem? hrow)) h
    obtain ⟨L, f1, f2, f3⟩ := ih a1 (fun c hc' => hc c (by simp [hc'])) e2
    unfold collect
    rw [hrow]
    simp only
    rw [e1]
    refine ⟨L, f1, f2, ?_⟩
    intro v
    rw [f3 v, e3 v]
    have hr : v ∈ row ↔ ∃ i, Spec.Edge I.rows c i v := by
      constructor
      · intro hv
        obtain ⟨i, hi⟩ := List.getElem?_of_mem hv
        exact ⟨i, row, hrow, hi⟩
      · rintro ⟨i, row', r1, r2⟩
        rw [hrow] at r1
        cases r1
        exact List.mem_of_getElem? r2
    rw [hr]
    simp only [List.mem_cons, exists_eq_or_imp]
    tauto

theorem nextSupp_spec (blocked : Nat → Bool) (it : It) (l : List Nat) :
    (∃ v l0 rest, it.nextSupp blocked l = ({ it with supp := some rest }, some v) ∧ l = l0 ++ v :: rest ∧ (∀ x ∈ l0, blocked x = true) ∧
      blocked v = false) ∨ (it.nextSupp blocked l = ({ it with supp := some [] }, none) ∧ ∀ x ∈ l, blocked x = true) := by
  induction l with
  | nil => right; exact ⟨rfl, by simp⟩
  | cons v vs ih =>
    unfold It.nextSupp
    cases hb : blocked v with
    | false => left; exact ⟨v, [], vs, by simp, rfl, by simp, hb⟩
    | true =>
      rw [if_pos rfl]
      rcases ih with ⟨w, l0, rest, h1, h2, h3, h4⟩ | ⟨h1, h2⟩
      · left
        refine ⟨w, v :: l0, rest, h1, by rw [h2]; rfl, ?_, h4⟩
        intro x hx
        rcases List.mem_cons.mp hx with rfl | hx
        · exact hb
        · exact h3 x hx
      · right
        refine ⟨h1, ?_⟩
        intro x hx
        rcases List.mem_cons.mp hx with rfl | hx
        · exact hb
        · exact h2 x hx

theorem next_done {dmax : Int} {I : Idx} {blocked : Nat → Bool} {it : It} (fuel : Nat) (hu : it.st.pool.hasNext = false) :
    It.next dmax I blocked fuel it = It.next.supplement I blocked it := by
  cases fuel with
  | zero => unfold It.next; rw [if_neg (by rw [hu]; simp)]
  | succ f => unfold It.next; rw [if_neg (by rw [hu]; simp)]

theorem It.next_spec {dmax : Int} {I : Idx} (hI : IdxOk I) {ef D : Nat} (hef : 0 < ef) (hD : ∀ row ∈ I.rows, row.length ≤ D)
    (blocked : Nat → Bool) (fuel : Nat) : ∀ {E : List Nat} {it : It}, SInv dmax dmax I ef (BRep I.rows.length) E it.st → it.nodes = E → it.supp = none →
    meas I D E it.st ≤ fuel →
    (∃ (it' : It) (l : List Nat) (v : Nat), It.next dmax I blocked fuel it = some (it', some v) ∧ (∀ x ∈ l, blocked x = true) ∧ blocked v = false ∧
      SInv dmax dmax I ef (BRep I.rows.length) (E ++ l ++ [v]) it'.st ∧ it'.nodes = E ++ l ++ [v] ∧ it'.supp = none ∧
      meas I D (E ++ l ++ [v]) it'.st ≤ meas I D E it.st) ∨
    (∃ (it' : It) (l L : List Nat), It.next dmax I blocked fuel it = some (it'.nextSupp blocked L) ∧ (∀ x ∈ l, blocked x = true) ∧
      SInv dmax dmax I ef (BRep I.rows.length) (E ++ l) it'.st ∧ it'.st.pool.hasNext = false ∧ collect I it'.st.vis (E ++ l) [] = some L) := by
  induction fuel with
  | zero =>
    intro E it h hno hsu hf
    cases hu : it.st.pool.hasNext with
    | true =>
      obtain ⟨s', r, -, h2⟩ := step_spec hI (bit_ok _) hef hD h hu
      rcases h2 with ⟨-, -, h2⟩ | ⟨c, -, -, h2⟩ <;> omega
    | false =>
      right
      obtain ⟨L, e1, -, -⟩ := collect_spec hI h.vis E [] h.lin.valid (by simp)
      refine ⟨it, [], L, ?_, by simp, by simpa using h, hu, by simpa using e1⟩
      rw [next_done _ hu]
      unfold It.next.supplement
      rw [hsu]
      simp only
      rw [hno, e1]
  | succ fuel ih =>
    intro E it h hno hsu hf
    cases hu : it.st.pool.hasNext with
    | false =>
      right
      obtain ⟨L, e1, -, -⟩ := collect_spec hI h.vis E [] h.lin.valid (by simp)
      refine ⟨it, [], L, ?_, by simp, by simpa using h, hu, by simpa using e1⟩
      rw [next_done _ hu]
      unfold It.next.supplement
      rw [hsu]
      simp only
      rw [hno, e1]
    | true =>
      obtain ⟨s', r, h1, h2⟩ := step_spec hI (bit_ok _) hef hD h hu
      unfold It.next
      rw [if_pos hu, h1]
      rcases h2 with ⟨rfl, h3, h4⟩ | ⟨c, rfl, h3, h4⟩
      · simp only
        rcases ih (it := { it with st := s' }) h3 hno hsu (by simp only; omega) with ⟨it', l, v, a1, a2, a3, a4, a5, a6, a7⟩ | hB
        · left
          exact ⟨it', l, v, a1, a2, a3, a4, a5, a6, by simp only at a7; omega⟩
        · right; exact hB
      · simp only
        cases hb : blocked c with
        | false =>
          rw [if_neg (by simp)]
          left
          exact ⟨_, [], c, rfl, by simp, hb, by simpa using h3, by simp [hno], hsu, by simp only [List.append_nil]; omega⟩
        | true =>
          rw [if_pos rfl]
          have hcons : ∀ l : List Nat, (∀ x ∈ l, blocked x = true) → ∀ x ∈ c :: l, blocked x = true := by
            intro l hl x hx
            rcases List.mem_cons.mp hx with rfl | hx
            · exact hb
            · exact hl x hx
          rcases ih (E := E ++ [c]) (it := { it with st := s', nodes := it.nodes ++ [c] }) h3 (by simp [hno]) hsu (by simp only; omega) with
            ⟨it', l, v, a1, a2, a3, a4, a5, a6, a7⟩ | ⟨it', l, L, a1, a2, a3, a4, a5⟩
          · left
            exact ⟨it', c :: l, v, a1, hcons l a2, a3, by simpa using a4, by simpa using a5, a6, by simp at a7 ⊢; omega⟩
          · right
            exact ⟨it', c :: l, L, a1, hcons l a2, by simpa using a3, a4, by simpa using a5⟩

/-- The candidates that pass the mask. -/
def pass (blocked : Nat → Bool) (l : List Nat) : List Nat := l.filter (fun v => !blocked v)

theorem pass_blocked {blocked : Nat → Bool} {l : List Nat} (h : ∀ x ∈ l, blocked x = true) : pass blocked l = [] := by
  unfold pass
  rw [List.filter_eq_nil_iff]
  intro a ha
  simp [h a ha]

theorem drain_supp {dmax : Int} {I : Idx} (blocked : Nat → Bool) (fuel : Nat) {k : Nat} (hk : 0 < k) (m : Nat) : ∀ {it : It} {rest : List Nat} {res : SBuf}
    {off : List Nat}, it.st.pool.hasNext = false → BInv dmax I.exact k res off → rest.length ≤ m →
    It.next dmax I blocked fuel it = some (it.nextSupp blocked rest) →
    ∃ res', drain dmax I blocked fuel m it res = some res' ∧ BInv dmax I.exact k res' (off ++ pass blocked rest) := by
  induction m with
  | zero =>
    intro it rest res off hu hb hl hnx
    have : rest = [] := List.length_eq_zero_iff.mp (by omega)
    subst this
    unfold drain
    rw [hnx]
    exact ⟨res, rfl, by simpa [pass] using hb⟩
  | succ m ih =>
    intro it rest res off hu hb hl hnx
    unfold drain
    rw [hnx]
    rcases nextSupp_spec blocked it rest with ⟨v, l0, r2, h1, h2, h3, h4⟩ | ⟨h1, h2⟩
    · rw [h1]
      simp only
      obtain ⟨res1, b1, b2⟩ := hb.insert hk v
      rw [b1]
      simp only
      obtain ⟨res', c1, c2⟩ := ih (it := { it with supp := some r2 }) (rest := r2) hu b2 (by rw [h2] at hl; simp at hl; omega) (by
        rw [next_done _ (by exact hu)]
        unfold It.next.supplement
        rfl)
      refine ⟨res', c1, ?_⟩
      have : pass blocked rest = v :: pass blocked r2 := by
        have e0 := pass_blocked h3
        unfold pass at e0 ⊢
        rw [h2, List.filter_append, e0, List.filter_cons]
        simp [h4]
      rw [this]
      simpa using c2
    · rw [h1]
      simp only
      refine ⟨res, rfl, ?_⟩
      rw [pass_blocked h2]
      simpa using hb

theorem drain_spec {dmax : Int} {I : Idx} (hI : IdxOk I) {ef D k : Nat} (hef : 0 < ef) (hk : 0 < k) (hD : ∀ row ∈ I.rows, row.length ≤ D)
    (blocked : Nat → Bool) (fuel m : Nat) : ∀ {E : List Nat} {it : It} {res : SBuf}, SInv dmax dmax I ef (BRep I.rows.length) E it.st → it.nodes = E →
    it.supp = none → meas I D E it.st ≤ fuel → I.rows.length ≤ m + E.length → BInv dmax I.exact k res (pass blocked E) →
    ∃ res' E' L, drain dmax I blocked fuel m it res = some res' ∧ Spec.Expanded I.rows I.est dmax I.ep ef E' ∧ L.Nodup ∧
      (∀ v, v ∈ L ↔ (∃ c ∈ E', ∃ i, Spec.Edge I.rows c i v) ∧ v ∉ E') ∧ BInv dmax I.exact k res' (pass blocked (E' ++ L)) := by
  have fin : ∀ (m : Nat) {E l L : List Nat} {it it' : It} {res : SBuf}, I.rows.length ≤ m + E.length → BInv dmax I.exact k res (pass blocked E) →
      It.next dmax I blocked fuel it = some (it'.nextSupp blocked L) → (∀ x ∈ l, blocked x = true) →
      SInv dmax dmax I ef (BRep I.rows.length) (E ++ l) it'.st → it'.st.pool.hasNext = false → collect I it'.st.vis (E ++ l) [] = some L →
      ∃ res' E' L, drain dmax I blocked fuel m it res = some res' ∧ Spec.Expanded I.rows I.est dmax I.ep ef E' ∧ L.Nodup ∧
      (∀ v, v ∈ L ↔ (∃ c ∈ E', ∃ i, Spec.Edge I.rows c i v) ∧ v ∉ E') ∧ BInv dmax I.exact k res' (pass blocked (E' ++ L)) := by
    intro m E l L it it' res hm hb a1 a2 a3 a4 a5
    obtain ⟨L', c1, c2, c3⟩ := collect_spec hI a3.vis (E ++ l) [] a3.lin.valid (by simp)
    rw [a5] at c1
    cases c1
    have hmem : ∀ v, v ∈ L ↔ (∃ c ∈ E ++ l, ∃ i, Spec.Edge I.rows c i v) ∧ v ∉ E ++ l := by
      intro v
      rw [c3 v]
      simp
    have hall : (E ++ l ++ L).Nodup := by
      rw [List.nodup_append]
      refine ⟨a3.lin.nodup, c2, ?_⟩
      intro a ha b hb' hab
      rw [hab] at ha
      exact ((hmem b).mp hb').2 ha
    have hlen : (E ++ l ++ L).length ≤ I.rows.length := by
      apply nodup_lt_length hall
      intro v hv
      rcases List.mem_append.mp hv with hv | hv
      · exact a3.lin.valid v hv
      · obtain ⟨c, -, i, hi⟩ := ((hmem v).mp hv).1
        exact Edge.lt hI hi
    have hpE : pass blocked (E ++ l) = pass blocked E := by
      have := pass_blocked a2
      unfold pass at this ⊢
      rw [List.filter_append, this, List.append_nil]
    -- draining from `it` is draining from `it'`
    have heq : ∃ res', drain dmax I blocked fuel m it res = some res' ∧ BInv dmax I.exact k res' (pass blocked E ++ pass blocked L) := by
      have hq : ∀ (itx : It), It.next dmax I blocked fuel itx = It.next dmax I blocked fuel it →
          drain dmax I blocked fuel m itx res = drain dmax I blocked fuel m it res := by
        intro itx hx
        cases m with
        | zero => unfold drain; rw [hx]
        | succ m => unfold drain; rw [hx]
      have hn2 : It.next dmax I blocked fuel { it' with supp := some L } = some (it'.nextSupp blocked L) := by
        rw [next_done _ (by exact a4)]
        unfold It.next.supplement
        simp only
        congr 1
        have : ∀ l, It.nextSupp blocked { it' with supp := some L } l = It.nextSupp blocked it' l := by
          intro l
          induction l with
          | nil => rfl
          | cons v vs ih => unfold It.nextSupp; split <;> first | exact ih | rfl
        exact this L
      rw [← hq { it' with supp := some L } (by rw [hn2, a1])]
      refine drain_supp blocked fuel hk m (it := { it' with supp := some L }) (rest := L) a4 hb (by simp at hlen; omega) ?_
      rw [hn2]
      congr 1
      have : ∀ l, It.nextSupp blocked { it' with supp := some L } l = It.nextSupp blocked it' l := by
        intro l
        induction l with
        | nil => rfl
        | cons v vs ih => unfold It.nextSupp; split <;> first | exact ih | rfl
      exact (this L).symm
    obtain ⟨res', d1, d2⟩ := heq
    refine ⟨res', E ++ l, L, d1, a3.expanded hI a4, c2, hmem, ?_⟩
    have : pass blocked (E ++ l ++ L) = pass blocked E ++ pass blocked L := by
      rw [← hpE]; unfold pass; rw [List.filter_append]
    rw [this]
    exact d2
  induction m with
  | zero =>
    intro E it res h hno hsu hf hm hb
    rcases It.next_spec hI hef hD blocked fuel h hno hsu hf with ⟨it', l, v, a1, a2, a3, a4, a5, a6, a7⟩ | ⟨it', l, L, a1, a2, a3, a4, a5⟩
    · have := nodup_lt_length a4.lin.nodup a4.lin.valid
      simp at this
      omega
    · exact fin 0 hm hb a1 a2 a3 a4 a5
  | succ m ih =>
    intro E it res h hno hsu hf hm hb
    rcases It.next_spec hI hef hD blocked fuel h hno hsu hf with ⟨it', l, v, a1, a2, a3, a4, a5, a6, a7⟩ | ⟨it', l, L, a1, a2, a3, a4, a5⟩
    · unfold drain
      rw [a1]
      simp only
      obtain ⟨res1, b1, b2⟩ := hb.insert hk v
      rw [b1]
      simp only
      refine ih a4 a5 a6 (by omega) (by simp; omega) ?_
      have : pass blocked (E ++ l ++ [v]) = pass blocked E ++ [v] := by
        have := pass_blocked a2
        unfold pass at this ⊢
        rw [List.filter_append, List.filter_append, this]
        simp [a3]
      rw [this]
      exact b2
    · exact fin (m + 1) hm hb a1 a2 a3 a4 a5

end Alaya.RSearch
