import Verif.Spec.VecFiles
import Verif.Lemmas.Bytes
import Mathlib.Data.List.Basic

/-!
# Lemmas about files of vectors
-/

namespace Alaya.VecFiles

/-- Whole numbers, and few enough for the length field. -/
def Fits (b : Nat) (rows : List Bytes) : Prop := ∀ r ∈ rows, ∃ d, r.length = d * 4 ∧ d < b

theorem record {d : Nat} (hd : d < 4294967296) (r rest : Bytes) (hr : r.length = d * 4) :
    (leBytes 4 (r.length / 4) ++ r ++ rest).take 4 = leBytes 4 d ∧ leNat ((leBytes 4 (r.length / 4) ++ r ++ rest).take 4) = d ∧
      (leBytes 4 (r.length / 4) ++ r ++ rest).drop 4 = r ++ rest ∧
      ((leBytes 4 (r.length / 4) ++ r ++ rest).drop 4).take (d * 4) = r ∧
      ((leBytes 4 (r.length / 4) ++ r ++ rest).drop 4).drop (d * 4) = rest := by
  have e : r.length / 4 = d := by omega
  rw [e, List.append_assoc]
  have h1 : (leBytes 4 d ++ (r ++ rest)).take 4 = leBytes 4 d := List.take_left' (leBytes_length _ _)
  have h2 : (leBytes 4 d ++ (r ++ rest)).drop 4 = r ++ rest := List.drop_left' (leBytes_length _ _)
  rw [h1, h2]
  exact ⟨rfl, leNat_leBytes_of_lt (by simpa using hd), rfl, List.take_left' hr, List.drop_left' hr⟩

theorem vecs_length_ge (rows : List Bytes) : 4 * rows.length ≤ (vecs rows).length := by
  induction rows with
  | nil => simp
  | cons r t ih => simp only [vecs, List.length_append, leBytes_length, List.length_cons]; omega

theorem pyLoop_vecs (rows : List Bytes) (h : Fits 4294967296 rows) (k : Nat) (hk : rows.length < k) :
    pyLoop k (vecs rows) = some rows := by
  induction rows generalizing k with
  | nil =>
    obtain ⟨k, rfl⟩ : ∃ k', k = k' + 1 := ⟨k - 1, by simp at hk; omega⟩
    rfl
  | cons r t ih =>
    rw [List.length_cons] at hk
    obtain ⟨k, rfl⟩ : ∃ k', k = k' + 1 := ⟨k - 1, by omega⟩
    obtain ⟨d, hr, hd⟩ := h r List.mem_cons_self
    obtain ⟨_, h2, _, h4, h5⟩ := record hd r (vecs t) hr
    have hne : (leBytes 4 (r.length / 4) ++ r ++ vecs t).isEmpty = false := by simp [leBytes]
    simp only [pyLoop, vecs, h2, h4, h5, hne]
    rw [if_neg (by simp), if_neg (by omega), ih (fun x hx => h x (List.mem_cons_of_mem _ hx)) k (by omega)]
    rfl

theorem pieces (w : Nat) (L : List Bytes) (hL : ∀ x ∈ L, x.length = w) (tail : Bytes) :
    (List.range L.length).map (fun i => ((L.flatten ++ tail).drop (i * w)).take w) = L := by
  induction L with
  | nil => rfl
  | cons a L ih =>
    have ha := hL a List.mem_cons_self
    rw [List.length_cons, List.range_succ_eq_map, List.map_cons, List.map_map, List.flatten_cons, List.append_assoc]
    congr 1
    · rw [Nat.zero_mul, List.drop_zero]; exact List.take_left' ha
    · refine Eq.trans ?_ (ih (fun x hx => hL x (List.mem_cons_of_mem _ hx)))
      apply List.map_congr_left
      intro i _
      simp only [Function.comp]
      rw [Nat.succ_mul, Nat.add_comm (i * w) w, ← List.drop_drop, List.drop_left' ha]

theorem pieces_flatten (w n : Nat) (f : Bytes) : ((List.range n).map (fun i => (f.drop (i * w)).take w)).flatten = f.take (n * w) := by
  induction n with
  | zero => simp
  | succ n ih =>
    rw [List.range_succ, List.map_append, List.flatten_append, ih, Nat.succ_mul, List.take_add]
    simp

theorem vecs_flatten {d : Nat} {rows : List Bytes} (h : Rows d rows) : vecs rows = (rows.map (fun r => leBytes 4 d ++ r)).flatten := by
  induction rows with
  | nil => rfl
  | cons r t ih =>
    have hr := h r List.mem_cons_self
    rw [vecs, ih (fun x hx => h x (List.mem_cons_of_mem _ hx)), List.map_cons, List.flatten_cons, show r.length / 4 = d by omega]

theorem flatten_length {w : Nat} {L : List Bytes} (h : ∀ x ∈ L, x.length = w) : L.flatten.length = L.length * w := by
  induction L with
  | nil => simp
  | cons a L ih =>
    rw [List.flatten_cons, List.length_append, ih (fun x hx => h x (List.mem_cons_of_mem _ hx)), h a List.mem_cons_self, List.length_cons,
      Nat.succ_mul, Nat.add_comm]

theorem vecs_length {d : Nat} {rows : List Bytes} (h : Rows d rows) : (vecs rows).length = rows.length * (4 * (d + 1)) := by
  rw [vecs_flatten h, flatten_length (w := 4 * (d + 1)), List.length_map]
  intro x hx
  obtain ⟨r, hr, rfl⟩ := List.mem_map.mp hx
  rw [List.length_append, leBytes_length, h r hr]; omega

theorem bench_complete {d : Nat} (hd : d < 2147483648) {rows : List Bytes} (h : Rows d rows) (hne : rows ≠ []) (tail : Bytes)
    (ht : tail.length < 4) : benchVecs (vecs rows ++ tail) = some rows := by
  have hlen := vecs_length h
  have hpos := List.length_pos_iff.mpr hne
  obtain ⟨r, t, rfl⟩ := List.exists_cons_of_ne_nil hne
  have hr := h r List.mem_cons_self
  have h2 := (record (d := d) (by omega) r (vecs t ++ tail) (by omega)).2.1
  have hfile : vecs (r :: t) ++ tail = leBytes 4 (r.length / 4) ++ r ++ (vecs t ++ tail) := by simp [vecs]
  have hd' : leNat ((vecs (r :: t) ++ tail).take 4) = d := by rw [hfile]; exact h2
  have hl4 : (vecs (r :: t) ++ tail).length / 4 = (r :: t).length * (d + 1) := by
    rw [List.length_append, hlen, Nat.mul_left_comm]; omega
  unfold benchVecs
  rw [if_neg (by rw [List.length_append, hlen, List.length_cons, Nat.succ_mul]; omega)]
  simp only [hd', hl4, Nat.mul_mod_left, Nat.mul_div_cancel _ (Nat.succ_pos d)]
  rw [if_neg (by omega), if_neg (by simp)]
  have hp := pieces (4 * (d + 1)) ((r :: t).map (fun r => leBytes 4 d ++ r)) (by
    intro x hx
    obtain ⟨y, hy, rfl⟩ := List.mem_map.mp hx
    rw [List.length_append, leBytes_length, h y hy]; omega) tail
  rw [← vecs_flatten h, List.length_map] at hp
  rw [hp, if_pos]
  · rw [List.map_map]
    congr 1
    refine Eq.trans (List.map_congr_left ?_) (List.map_id _)
    intro x _
    simp only [Function.comp, id]
    exact List.drop_left' (leBytes_length _ _)
  · rw [List.all_eq_true]
    intro x hx
    obtain ⟨y, _, rfl⟩ := List.mem_map.mp hx
    rw [List.take_left' (leBytes_length _ _), leNat_leBytes_of_lt (by omega)]
    simp

theorem bench_sound {f : Bytes} {rows : List Bytes} (h : benchVecs f = some rows) :
    ∃ d tail, f = vecs rows ++ tail ∧ tail.length < 4 ∧ rows ≠ [] ∧ Rows d rows ∧ d < 2147483648 := by
  unfold benchVecs at h
  split at h
  · cases h
  · next h4 =>
    simp only at h
    split at h
    · cases h
    · next hd =>
      split at h
      · cases h
      · next hm =>
        split at h
        · next hall =>
          generalize hdd : leNat (f.take 4) = d at *
          obtain ⟨n, hn⟩ := Nat.dvd_of_mod_eq_zero (not_not.mp hm)
          have hn' : f.length / 4 / (d + 1) = n := by rw [hn, Nat.mul_div_cancel_left _ (Nat.succ_pos d)]
          rw [hn'] at h hall
          have hfl : n * (4 * (d + 1)) ≤ f.length ∧ f.length - n * (4 * (d + 1)) < 4 := by
            rw [Nat.mul_left_comm, Nat.mul_comm n]; omega
          have hpl : ∀ i < n, ((f.drop (i * (4 * (d + 1)))).take (4 * (d + 1))).length = 4 * (d + 1) := by
            intro i hi
            have := Nat.mul_le_mul_right (4 * (d + 1)) hi
            rw [Nat.succ_mul] at this
            rw [List.length_take, List.length_drop]; omega
          have hrows : Rows d rows := by
            rw [← Option.some.inj h]
            intro r hr
            obtain ⟨x, hx, rfl⟩ := List.mem_map.mp hr
            obtain ⟨i, hi, rfl⟩ := List.mem_map.mp hx
            rw [List.length_drop, hpl i (List.mem_range.mp hi)]; omega
          refine ⟨d, f.drop (n * (4 * (d + 1))), ?_, by rw [List.length_drop]; exact hfl.2, ?_, hrows, by omega⟩
          · rw [vecs_flatten hrows]
            have : rows.map (fun r => leBytes 4 d ++ r) = (List.range n).map (fun i => (f.drop (i * (4 * (d + 1)))).take (4 * (d + 1))) := by
              rw [← Option.some.inj h, List.map_map]
              refine Eq.trans (List.map_congr_left ?_) (List.map_id _)
              intro x hx
              have hx4 := List.all_eq_true.mp hall x hx
              rw [decide_eq_true_eq] at hx4
              obtain ⟨i, hi, rfl⟩ := List.mem_map.mp hx
              simp only [Function.comp, id]
              have hl := hpl i (List.mem_range.mp hi)
              generalize (f.drop (i * (4 * (d + 1)))).take (4 * (d + 1)) = x at hx4 hl
              have e := leBytes_leNat (x.take 4)
              rw [hx4, List.length_take, hl, show min 4 (4 * (d + 1)) = 4 by omega] at e
              rw [e, List.take_append_drop]
            rw [this, pieces_flatten, List.take_append_drop]
          · intro e
            rw [e] at h
            have := Option.some.inj h
            simp only [List.map_eq_nil_iff, List.range_eq_nil] at this
            subst this
            simp only [Nat.mul_zero] at hn
            omega
        · cases h

theorem cppLoop_vecs (rows : List Bytes) (h : ∀ r ∈ rows, ∃ d, r.length = d * 4 ∧ d < 1073741824 ∧ 0 < d) (tail : Bytes) (ht : tail.length < 4)
    (k : Nat) (hk : rows.length < k) (dim : Nat) :
    cppLoop k (vecs rows ++ tail) dim =
      some (rows, leNat (tail ++ (leBytes 4 ((rows.getLast?.map (fun r => r.length / 4)).getD dim)).drop tail.length)) := by
  induction rows generalizing k dim with
  | nil =>
    obtain ⟨k, rfl⟩ : ∃ k', k = k' + 1 := ⟨k - 1, by simp at hk; omega⟩
    change cppLoop (k + 1) tail dim = _
    simp only [cppLoop]
    rw [if_pos ht]; rfl
  | cons r t ih =>
    rw [List.length_cons] at hk
    obtain ⟨k, rfl⟩ : ∃ k', k = k' + 1 := ⟨k - 1, by omega⟩
    obtain ⟨d, hr, hd, h0⟩ := h r List.mem_cons_self
    obtain ⟨_, h2, _, h4, h5⟩ := record (by omega) r (vecs t ++ tail) hr
    have hfile : vecs (r :: t) ++ tail = leBytes 4 (r.length / 4) ++ r ++ (vecs t ++ tail) := by simp [vecs]
    rw [hfile]
    simp only [cppLoop, h2, h4, h5]
    rw [if_neg (by simp only [List.length_append, leBytes_length]; omega), if_neg (by omega), if_neg (by omega), if_neg (by omega),
      ih (fun x hx => h x (List.mem_cons_of_mem _ hx)) k (by omega) d]
    simp only [Option.map_some]
    congr 3
    cases t with
    | nil => simp only [List.getLast?_nil, List.getLast?_singleton, Option.map_none, Option.map_some, Option.getD_none, Option.getD_some]
             rw [show r.length / 4 = d by omega]
    | cons a t => rw [List.getLast?_cons_cons]
                  rw [List.getLast?_eq_some_getLast (List.cons_ne_nil a t)]; rfl

theorem cppLoop_sound (k : Nat) (f : Bytes) (dim dim' : Nat) (rows : List Bytes) (h : cppLoop k f dim = some (rows, dim')) :
    (∃ tail, f = vecs rows ++ tail ∧ tail.length < 4) ∨ ∃ pre tail, f = vecs pre ++ tail ∧ 4 ≤ tail.length ∧ 1073741824 ≤ leNat (tail.take 4) := by
  induction k generalizing f dim dim' rows with
  | zero => cases h
  | succ k ih =>
    simp only [cppLoop] at h
    split at h
    · next hf =>
      simp only [Option.some.injEq, Prod.mk.injEq] at h
      rw [← h.1]
      exact Or.inl ⟨f, rfl, hf⟩
    · next hf =>
      by_cases hbig : 1073741824 ≤ leNat (f.take 4)
      · exact Or.inr ⟨[], f, rfl, by omega, hbig⟩
      · split at h
        · cases h
        · split at h
          · cases h
          · next hm =>
            split at h
            · next hlt => exfalso; omega
            · next hge =>
              obtain ⟨⟨rs, dm⟩, hrec, he⟩ := Option.map_eq_some_iff.mp h
              simp only [Prod.mk.injEq] at he
              obtain ⟨he, _⟩ := he
              have hb : ((f.drop 4).take (leNat (f.take 4) * 4)).length = leNat (f.take 4) * 4 := by
                have := List.length_take_le (leNat (f.take 4) * 4) (f.drop 4)
                omega
              have e4 : leBytes 4 (leNat (f.take 4)) = f.take 4 := by
                have := leBytes_leNat (f.take 4)
                rwa [List.length_take, show min 4 f.length = 4 by omega] at this
              have hsplit : ∀ X, (f.drop 4).drop (leNat (f.take 4) * 4) = X → f =
                  leBytes 4 (((f.drop 4).take (leNat (f.take 4) * 4)).length / 4) ++ (f.drop 4).take (leNat (f.take 4) * 4) ++ X := by
                intro X hX
                rw [hb, Nat.mul_div_cancel _ (by omega), e4, ← hX, List.append_assoc, List.take_append_drop, List.take_append_drop]
              rcases ih _ _ _ _ hrec with ⟨tail, h1, h2⟩ | ⟨pre, tail, h1, h2, h3⟩
              · refine Or.inl ⟨tail, ?_, h2⟩
                rw [← he, vecs, List.append_assoc _ (vecs rs) tail]
                exact hsplit _ h1
              · refine Or.inr ⟨(f.drop 4).take (leNat (f.take 4) * 4) :: pre, tail, ?_, h2, h3⟩
                rw [vecs, List.append_assoc _ (vecs pre) tail]
                exact hsplit _ h1

theorem ivLoop_vecs {d : Nat} (hd : d < 4294967296) (A B : List Bytes) (hA : Rows d A) (hB : Rows d B) (tail : Bytes)
    (hn : (A.length + B.length) * d < 4294967296) (dim : Nat) (hdim : B = [] → dim = d) :
    ivLoop B.length A.length (vecs B ++ tail) (A.flatten ++ List.replicate (B.length * d * 4) 0) dim = some ((A ++ B).flatten, d) := by
  induction B generalizing A dim with
  | nil => simp [ivLoop, hdim rfl]
  | cons r t ih =>
    have hr := hB r List.mem_cons_self
    obtain ⟨_, h2, h3, h4, h5⟩ := record hd r (vecs t ++ tail) (by omega)
    have hfile : vecs (r :: t) ++ tail = leBytes 4 (r.length / 4) ++ r ++ (vecs t ++ tail) := by simp [vecs]
    have hAl := flatten_length hA
    have hi : A.length * d < 4294967296 := by
      rw [Nat.add_mul] at hn; omega
    have hoff : A.length * d % 4294967296 * 4 = A.flatten.length := by
      rw [Nat.mod_eq_of_lt hi, hAl, Nat.mul_assoc, Nat.mul_comm d 4]
    rw [hfile, List.length_cons]
    simp only [ivLoop, h2, h4, h5, hoff]
    have e : (t.length + 1) * d * 4 = d * 4 + t.length * d * 4 := by rw [Nat.succ_mul, Nat.add_mul]; omega
    rw [if_neg (by simp only [List.length_append, leBytes_length]; omega),
      if_neg (by rw [List.length_append, List.length_replicate, e]; omega),
      if_neg (by rw [h3, List.length_append, hr]; omega)]
    have hdata : (A.flatten ++ List.replicate ((t.length + 1) * d * 4) 0).take A.flatten.length ++ r ++
        (A.flatten ++ List.replicate ((t.length + 1) * d * 4) 0).drop (A.flatten.length + d * 4) =
        (A ++ [r]).flatten ++ List.replicate (t.length * d * 4) 0 := by
      rw [List.take_left', ← List.drop_drop, List.drop_left', List.drop_replicate, e, Nat.add_sub_cancel_left]
      · simp
      · rfl
      · rfl
    rw [hdata]
    have := ih (A ++ [r]) (by
      intro x hx
      rcases List.mem_append.mp hx with hx | hx
      · exact hA x hx
      · rw [List.mem_singleton.mp hx]; exact hr) (fun x hx => hB x (List.mem_cons_of_mem _ hx)) (by
        rw [List.length_append, List.length_singleton, Nat.add_assoc, Nat.add_comm 1]; exact hn) d (fun _ => rfl)
    rw [List.length_append, List.length_singleton] at this
    rw [this]; simp

end Alaya.VecFiles
