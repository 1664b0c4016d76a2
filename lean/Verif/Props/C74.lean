import Verif.Model.Sq
import Mathlib.Tactic.Linarith
import Mathlib.Tactic.FieldSimp
import Mathlib.Tactic.Ring
import Mathlib.Tactic.Positivity

/-
C74: the scalar quantisers.  After `fit` every coordinate lies in the stored range, whose ends are attained.  Under any monotone rounding the
codes of finite vectors are defined, grow with the value, and are 0 and K at the ends; with a relative rounding error ε the decoded value is
off by at most (1/K + 5ε) of the range.  The 8-bit distances are the distances of the decoded vectors, coordinate by coordinate.  Refuted:
the same for 4 bits (encoder and distance disagree about the halves of a byte; the last of an odd number of coordinates is ignored), and that
NaN or a range that overflows is handled, and that vectors outside of the fitted range are told apart.
-/
namespace Alaya.Sq

/-! ### Specification -/

/-- The value a code stands for. -/
def deq (K : Nat) (c : Nat) (mn mx : Rat) : Rat := mn + (c : Rat) / K * (mx - mn)

/-- Squared distance and inner product of decoded vectors. -/
def l2spec (K : Nat) : List Nat → List Nat → List Rat → List Rat → Rat
  | x :: xs, y :: ys, mn :: mns, mx :: mxs => (deq K x mn mx - deq K y mn mx) ^ 2 + l2spec K xs ys mns mxs
  | _, _, _, _ => 0

def ipspec (K : Nat) : List Nat → List Nat → List Rat → List Rat → Rat
  | x :: xs, y :: ys, mn :: mns, mx :: mxs => deq K x mn mx * deq K y mn mx + ipspec K xs ys mns mxs
  | _, _, _, _ => 0

/-- A monotone rounding that keeps 0 and K. -/
structure Rounding (rd : Rat → X) (K : Nat) : Prop where
  mono : ∀ a b, a ≤ b → (rd a).le (rd b) = true
  zero : rd 0 = .num 0
  one : rd 1 = .num 1
  top : rd K = .num K

/-! ### Fitting -/

theorem fit_col (dim : Nat) : ∀ (rows : List (List Rat)) (q : Quant) (ms Ms : List Rat), q.mins = ms.map .num → q.maxs = Ms.map .num →
    ms.length = dim → Ms.length = dim → (∀ r ∈ rows, r.length = dim) →
    ∃ ms' Ms' : List Rat, (fit q (rows.map (·.map X.num))).mins = ms'.map .num ∧ (fit q (rows.map (·.map X.num))).maxs = Ms'.map .num ∧
      ms'.length = dim ∧ Ms'.length = dim ∧
      ∀ i, (h : i < dim) → ms'.getD i 0 ≤ ms.getD i 0 ∧ Ms.getD i 0 ≤ Ms'.getD i 0 ∧
        (∀ r ∈ rows, ms'.getD i 0 ≤ r.getD i 0 ∧ r.getD i 0 ≤ Ms'.getD i 0) ∧
        (ms'.getD i 0 = ms.getD i 0 ∨ ∃ r ∈ rows, ms'.getD i 0 = r.getD i 0) ∧
        (Ms'.getD i 0 = Ms.getD i 0 ∨ ∃ r ∈ rows, Ms'.getD i 0 = r.getD i 0) := by
  intro rows
  induction rows with
  | nil =>
    intro q ms Ms h1 h2 h3 h4 _
    exact ⟨ms, Ms, h1, h2, h3, h4, fun i _ => ⟨le_refl _, le_refl _, by simp, .inl rfl, .inl rfl⟩⟩
  | cons r rows ih =>
    intro q ms Ms h1 h2 h3 h4 hl
    have hr : r.length = dim := hl r (by simp)
    have e1 : (fitRow q (r.map X.num)).mins = (List.zipWith (fun m v => if v < m then v else m) ms r).map .num := by
      simp only [fitRow, h1]
      rw [List.zipWith_map, List.map_zipWith]
      congr 1
      funext m v
      simp only [X.lt]
      by_cases h : v < m <;> simp [h]
    have e2 : (fitRow q (r.map X.num)).maxs = (List.zipWith (fun m v => if m < v then v else m) Ms r).map .num := by
      simp only [fitRow, h2]
      rw [List.zipWith_map, List.map_zipWith]
      congr 1
      funext m v
      simp only [X.lt]
      by_cases h : m < v <;> simp [h]
    obtain ⟨ms', Ms', k1, k2, k3, k4, k5⟩ := ih (fitRow q (r.map X.num)) _ _ e1 e2 (by simp [h3, hr]) (by simp [h4, hr])
      (fun x hx => hl x (by simp [hx]))
    refine ⟨ms', Ms', k1, k2, k3, k4, ?_⟩
    intro i hi
    obtain ⟨a1, a2, a3, a4, a5⟩ := k5 i hi
    have g1 : (List.zipWith (fun m v => if v < m then v else m) ms r).getD i 0 = if r.getD i 0 < ms.getD i 0 then r.getD i 0 else ms.getD i 0 := by
      simp [List.getD_eq_getElem?_getD, List.getElem?_zipWith, List.getElem?_eq_getElem (show i < ms.length by omega),
        List.getElem?_eq_getElem (show i < r.length by omega)]
    have g2 : (List.zipWith (fun m v => if m < v then v else m) Ms r).getD i 0 = if Ms.getD i 0 < r.getD i 0 then r.getD i 0 else Ms.getD i 0 := by
      simp [List.getD_eq_getElem?_getD, List.getElem?_zipWith, List.getElem?_eq_getElem (show i < Ms.length by omega),
        List.getElem?_eq_getElem (show i < r.length by omega)]
    rw [g1] at a1 a4
    rw [g2] at a2 a5
    refine ⟨?_, ?_, ?_, ?_, ?_⟩
    · split at a1 <;> linarith
    · split at a2 <;> linarith
    · intro x hx
      rcases List.mem_cons.1 hx with rfl | hx
      · constructor
        · split at a1 <;> linarith
        · split at a2 <;> linarith
      · exact a3 x hx
    · rcases a4 with h | ⟨x, hx, h⟩
      · split at h
        · exact .inr ⟨r, by simp, h⟩
        · exact .inl h
      · exact .inr ⟨x, by simp [hx], h⟩
    · rcases a5 with h | ⟨x, hx, h⟩
      · split at h
        · exact .inr ⟨r, by simp, h⟩
        · exact .inl h
      · exact .inr ⟨x, by simp [hx], h⟩

/-- After `fit` of at least one vector of finite floats the range of every coordinate is exactly the range of the data. -/
theorem C74_fit (big : Rat) (dim : Nat) (rows : List (List Rat)) (hne : rows ≠ []) (hl : ∀ r ∈ rows, r.length = dim)
    (hb : ∀ r ∈ rows, ∀ v ∈ r, -big ≤ v ∧ v ≤ big) :
    ∃ ms Ms : List Rat, (fit (init dim big) (rows.map (·.map X.num))).mins = ms.map .num ∧
      (fit (init dim big) (rows.map (·.map X.num))).maxs = Ms.map .num ∧ ms.length = dim ∧ Ms.length = dim ∧
      ∀ i, i < dim → (∀ r ∈ rows, ms.getD i 0 ≤ r.getD i 0 ∧ r.getD i 0 ≤ Ms.getD i 0) ∧
        (∃ r ∈ rows, ms.getD i 0 = r.getD i 0) ∧ ∃ r ∈ rows, Ms.getD i 0 = r.getD i 0 := by
  obtain ⟨ms, Ms, h1, h2, h3, h4, h5⟩ := fit_col dim rows (init dim big) (List.replicate dim big) (List.replicate dim (-big))
    (by simp [init]) (by simp [init]) (by simp) (by simp) hl
  refine ⟨ms, Ms, h1, h2, h3, h4, ?_⟩
  intro i hi
  obtain ⟨a1, a2, a3, a4, a5⟩ := h5 i hi
  obtain ⟨r0, rs, rfl⟩ := List.exists_cons_of_ne_nil hne
  have hr0 := hl r0 (by simp)
  have hv : r0.getD i 0 ∈ r0 := by
    rw [List.getD_eq_getElem?_getD, List.getElem?_eq_getElem (by omega)]
    exact List.getElem_mem (by omega)
  have hvb := hb r0 (by simp) _ hv
  have hin := a3 r0 (by simp)
  have c1 : (List.replicate dim big).getD i 0 = big := by simp [List.getD_eq_getElem?_getD, List.getElem?_replicate, hi]
  have c2 : (List.replicate dim (-big)).getD i 0 = -big := by simp [List.getD_eq_getElem?_getD, List.getElem?_replicate, hi]
  rw [c1] at a4
  rw [c2] at a5
  refine ⟨a3, ?_, ?_⟩
  · rcases a4 with h | h
    · exact ⟨r0, by simp, by linarith [hin.1, hvb.2]⟩
    · exact h
  · rcases a5 with h | h
    · exact ⟨r0, by simp, by linarith [hin.2, hvb.1]⟩
    · exact h

/-- Two vectors. -/
example : (fit (init 2 100) [[.num 3, .num (-1)], [.num 1, .num 7]]).mins = [.num 1, .num (-1)] ∧
    (fit (init 2 100) [[.num 3, .num (-1)], [.num 1, .num 7]]).maxs = [.num 3, .num 7] := by decide +kernel

/-! ### Codes -/

theorem le_num {a b : Rat} : (X.num a).le (.num b) = true ↔ a ≤ b := by
  simp [X.le, X.lt, X.eq, le_iff_lt_or_eq]

theorem eq_num {a b : Rat} : (X.num a).eq (.num b) = true ↔ a = b := by simp [X.eq]

/-- A value between two finite roundings is finite. -/
theorem between {x : X} {a b : Rat} (h1 : (X.num a).le x = true) (h2 : x.le (.num b) = true) : ∃ q, x = .num q ∧ a ≤ q ∧ q ≤ b := by
  cases x with
  | nan => simp [X.le, X.lt, X.eq] at h1
  | ninf => simp [X.le, X.lt, X.eq] at h1
  | inf => simp [X.le, X.lt, X.eq] at h2
  | num q => exact ⟨q, rfl, le_num.1 h1, le_num.1 h2⟩

/-- The inner part of `quantize`: between the ends, with a finite and positive rounded width. -/
theorem quantize_inner {rd : Rat → X} {K : Nat} (hr : Rounding rd K) (hK : K ≤ 255) {v mn mx w : Rat} (h1 : mn < v) (h2 : v < mx)
    (hw : rd (mx - mn) = .num w) (hpos : 0 < w) : ∃ a s t : Rat, rd (v - mn) = .num a ∧ rd (a / w) = .num s ∧ rd (s * K) = .num t ∧
      0 ≤ a ∧ a ≤ w ∧ 0 ≤ s ∧ s ≤ 1 ∧ 0 ≤ t ∧ t ≤ K ∧ quantize rd K (.num v) (.num mn) (.num mx) = some ⌊t⌋.toNat := by
  obtain ⟨a, ha, ha1, ha2⟩ := between (a := 0) (b := w) (x := rd (v - mn)) (by rw [← hr.zero]; exact hr.mono _ _ (by linarith))
    (by rw [← hw]; exact hr.mono _ _ (by linarith))
  have hq0 : 0 ≤ a / w := div_nonneg ha1 hpos.le
  have hq1 : a / w ≤ 1 := (div_le_one hpos).2 ha2
  obtain ⟨s, hs, hs1, hs2⟩ := between (a := 0) (b := 1) (x := rd (a / w)) (by rw [← hr.zero]; exact hr.mono _ _ hq0)
    (by rw [← hr.one]; exact hr.mono _ _ hq1)
  have hKq : (0 : Rat) ≤ K := Nat.cast_nonneg K
  obtain ⟨t, ht, ht1, ht2⟩ := between (a := 0) (b := K) (x := rd (s * K)) (by rw [← hr.zero]; exact hr.mono _ _ (mul_nonneg hs1 hKq))
    (by rw [← hr.top]; exact hr.mono _ _ (by nlinarith))
  refine ⟨a, s, t, ha, hs, ht, ha1, ha2, hs1, hs2, ht1, ht2, ?_⟩
  unfold quantize
  rw [if_neg (by rw [eq_num]; linarith), if_neg (by rw [le_num]; linarith), if_neg (by rw [le_num]; linarith)]
  simp only [X.sub, ha, hw, X.div, if_neg hpos.ne', hs, X.mulNat, ht, X.cast8]
  have hK' : (K : Rat) ≤ 255 := by exact_mod_cast hK
  rw [if_pos ⟨by linarith, by linarith⟩]

theorem floor_le {t : Rat} {K : Nat} (h0 : 0 ≤ t) (h : t ≤ K) : ⌊t⌋.toNat ≤ K := by
  have : ⌊t⌋ ≤ (K : Int) := by
    have := Int.floor_le_floor h
    simpa using this
  omega

/-- Codes of finite floats are defined and at most K, for every monotone rounding under which the width of the range does not overflow or
vanish; the ends of the range get the codes 0 and K. -/
theorem C74_codes (rd : Rat → X) (K : Nat) (hr : Rounding rd K) (hK : K ≤ 255) (mn mx w : Rat) (hw : rd (mx - mn) = .num w)
    (hpos : mn < mx → 0 < w) (hle : mn ≤ mx) :
    (∀ v : Rat, ∃ c, quantize rd K (.num v) (.num mn) (.num mx) = some c ∧ c ≤ K) ∧
    (∀ v v' : Rat, v ≤ v' → ∀ c c', quantize rd K (.num v) (.num mn) (.num mx) = some c →
      quantize rd K (.num v') (.num mn) (.num mx) = some c' → c ≤ c') ∧
    (mn < mx → quantize rd K (.num mn) (.num mn) (.num mx) = some 0 ∧ quantize rd K (.num mx) (.num mn) (.num mx) = some K) := by
  have top : ∀ v : Rat, mn < mx → mx ≤ v → quantize rd K (.num v) (.num mn) (.num mx) = some K := by
    intro v h1 h2
    unfold quantize
    rw [if_neg (by rw [eq_num]; linarith), if_pos (le_num.2 h2)]
  have bot : ∀ v : Rat, mn < mx → v ≤ mn → quantize rd K (.num v) (.num mn) (.num mx) = some 0 := by
    intro v h1 h2
    unfold quantize
    rw [if_neg (by rw [eq_num]; linarith), if_neg (by rw [le_num]; linarith), if_pos (le_num.2 h2)]
  have same : ∀ v : Rat, mn = mx → quantize rd K (.num v) (.num mn) (.num mx) = some 0 := by
    intro v h
    unfold quantize
    rw [if_pos (eq_num.2 h.symm)]
  have tot : ∀ v : Rat, ∃ c, quantize rd K (.num v) (.num mn) (.num mx) = some c ∧ c ≤ K := by
    intro v
    rcases hle.lt_or_eq with hlt | heq
    · by_cases h1 : mx ≤ v
      · exact ⟨K, top v hlt h1, le_refl _⟩
      · by_cases h2 : v ≤ mn
        · exact ⟨0, bot v hlt h2, Nat.zero_le _⟩
        · obtain ⟨a, s, t, _, _, _, _, _, _, _, ht1, ht2, hc⟩ := quantize_inner hr hK (lt_of_not_ge h2) (lt_of_not_ge h1) hw (hpos hlt)
          exact ⟨_, hc, floor_le ht1 ht2⟩
    · exact ⟨0, same v heq, Nat.zero_le _⟩
  refine ⟨tot, ?_, fun hlt => ⟨bot mn hlt (le_refl _), top mx hlt (le_refl _)⟩⟩
  intro v v' hv c c' hc hc'
  rcases hle.lt_or_eq with hlt | heq
  · by_cases h1 : mx ≤ v'
    · rw [top v' hlt h1] at hc'
      obtain ⟨c0, h0, hk⟩ := tot v
      rw [hc] at h0
      cases h0; cases hc'; exact hk
    · by_cases h2 : v ≤ mn
      · rw [bot v hlt h2] at hc; cases hc; exact Nat.zero_le _
      · obtain ⟨a, s, t, ha, hs, ht, _, _, _, _, ht1, ht2, hq⟩ := quantize_inner hr hK (lt_of_not_ge h2)
          (lt_of_le_of_lt hv (lt_of_not_ge h1)) hw (hpos hlt)
        obtain ⟨a', s', t', ha', hs', ht', _, _, _, _, ht1', ht2', hq'⟩ := quantize_inner hr hK
          (lt_of_lt_of_le (lt_of_not_ge h2) hv) (lt_of_not_ge h1) hw (hpos hlt)
        rw [hc] at hq; rw [hc'] at hq'
        cases hq; cases hq'
        have m1 : a ≤ a' := by have := hr.mono (v - mn) (v' - mn) (by linarith); rw [ha, ha'] at this; exact le_num.1 this
        have m2 : s ≤ s' := by
          have := hr.mono (a / w) (a' / w) (div_le_div_of_nonneg_right m1 (hpos hlt).le)
          rw [hs, hs'] at this; exact le_num.1 this
        have m3 : t ≤ t' := by
          have := hr.mono (s * K) (s' * K) (mul_le_mul_of_nonneg_right m2 (Nat.cast_nonneg K))
          rw [ht, ht'] at this; exact le_num.1 this
        have := Int.floor_le_floor m3
        omega
  · rw [same v heq] at hc; cases hc; exact Nat.zero_le _

theorem ratio_err {ε v mn mx w a : Rat} (hε : 0 ≤ ε) (hε' : ε ≤ 1 / 3) (h1 : mn ≤ v) (h2 : v ≤ mx) (hW : 0 < mx - mn) (hwpos : 0 < w)
    (e1 : |a - (v - mn)| ≤ ε * (v - mn)) (e2 : |w - (mx - mn)| ≤ ε * (mx - mn)) : |a / w - (v - mn) / (mx - mn)| ≤ 3 * ε := by
  have e1 := abs_le.1 e1
  have e2 := abs_le.1 e2
  have hr0 : 0 ≤ (v - mn) / (mx - mn) := div_nonneg (by linarith) hW.le
  have hr1 : (v - mn) / (mx - mn) ≤ 1 := (div_le_one hW).2 (by linarith)
  have hrw : (v - mn) / (mx - mn) * (mx - mn) = v - mn := div_mul_cancel₀ _ hW.ne'
  generalize (v - mn) / (mx - mn) = r at hr0 hr1 hrw ⊢
  generalize mx - mn = W at *
  generalize v - mn = V at *
  subst hrw
  have hE : a / w - r = (a - r * w) / w := by rw [sub_div, mul_div_cancel_right₀ _ hwpos.ne']
  rw [hE, abs_div, abs_of_pos hwpos, div_le_iff₀ hwpos, abs_le]
  have p0 : 0 ≤ ε * W := mul_nonneg hε hW.le
  have p1 : r * (ε * W) ≤ ε * W := by nlinarith
  have p2 : r * w - r * W ≤ r * (ε * W) := by nlinarith [mul_le_mul_of_nonneg_left e2.2 hr0]
  have p3 : -(r * (ε * W)) ≤ r * w - r * W := by nlinarith [mul_le_mul_of_nonneg_left e2.1 hr0]
  have hw3 : 2 * W ≤ 3 * w := by nlinarith
  have p5 : 2 * (ε * W) ≤ 3 * ε * w := by nlinarith
  have p6 : ε * (r * W) = r * (ε * W) := by ring
  constructor <;> linarith [e1.1, e1.2]

theorem floor_cast {t : Rat} (h : 0 ≤ t) : (⌊t⌋.toNat : Rat) ≤ t ∧ t < (⌊t⌋.toNat : Rat) + 1 := by
  have h0 : (0 : Int) ≤ ⌊t⌋ := Int.floor_nonneg.2 h
  obtain ⟨n, hn⟩ := Int.eq_ofNat_of_zero_le h0
  have h3 : ((⌊t⌋.toNat : Nat) : Rat) = ((⌊t⌋ : Int) : Rat) := by rw [hn]; simp
  rw [h3]
  exact ⟨Int.floor_le t, Int.lt_floor_add_one t⟩

theorem code_err {K c t s q r ε : Rat} (hK : 0 < K) (f1 : c ≤ t) (f2 : t < c + 1) (e4 : |t - s * K| ≤ ε * K) (e3 : |s - q| ≤ ε)
    (e5 : |q - r| ≤ 3 * ε) : |c / K - r| ≤ 1 / K + 5 * ε := by
  have e3 := abs_le.1 e3
  have e4 := abs_le.1 e4
  have e5 := abs_le.1 e5
  have hE : c / K - r = (c - r * K) / K := by rw [sub_div, mul_div_cancel_right₀ _ hK.ne']
  have hE2 : 1 / K + 5 * ε = (1 + 5 * ε * K) / K := by rw [add_div, mul_div_cancel_right₀ _ hK.ne']
  rw [hE, hE2, abs_div, abs_of_pos hK]
  apply div_le_div_of_nonneg_right _ hK.le
  have g1 : s * K - r * K ≤ 4 * ε * K := by nlinarith
  have g2 : -(4 * ε * K) ≤ s * K - r * K := by nlinarith
  rw [abs_le]
  constructor <;> linarith [e4.1, e4.2]

/-- Decoding error for values inside of the range: at most (1/K + 5ε) of the width, if every result is off by at most ε relative to the
larger of itself and 1, and the two differences by at most ε relative to themselves (binary32 without overflow: ε = 2^-24; a difference of
two floats has no underflow error). -/
theorem C74_error (rd : Rat → X) (K : Nat) (hr : Rounding rd K) (hK : K ≤ 255) (hK0 : 0 < K) (ε : Rat) (hε : 0 ≤ ε) (hε' : ε ≤ 1 / 3)
    (hrel : ∀ x y, rd x = .num y → |y - x| ≤ ε * max 1 |x|)
    (v mn mx w : Rat) (h1 : mn ≤ v) (h2 : v ≤ mx) (hlt : mn < mx) (hw : rd (mx - mn) = .num w)
    (hwr : |w - (mx - mn)| ≤ ε * (mx - mn)) (hvr : ∀ a, rd (v - mn) = .num a → |a - (v - mn)| ≤ ε * (v - mn)) (c : Nat)
    (hc : quantize rd K (.num v) (.num mn) (.num mx) = some c) :
    |deq K c mn mx - v| ≤ (1 / K + 5 * ε) * (mx - mn) := by
  have hW : 0 < mx - mn := by linarith
  have hKq : (0 : Rat) < K := by exact_mod_cast hK0
  have hb : 0 ≤ (1 / (K : Rat) + 5 * ε) * (mx - mn) := by positivity
  have hwpos : 0 < w := by
    have := (abs_le.1 hwr).1
    nlinarith
  obtain ⟨_, _, hends⟩ := C74_codes rd K hr hK mn mx w hw (fun _ => hwpos) hlt.le
  obtain ⟨hend0, hendK⟩ := hends hlt
  rcases h2.lt_or_eq with h2 | h2
  · rcases h1.lt_or_eq with h1 | h1
    · obtain ⟨a, s, t, ha, hs, ht, ha1, ha2, hs1, hs2, ht1, ht2, hq⟩ := quantize_inner hr hK h1 h2 hw hwpos
      rw [hc] at hq
      cases hq
      have e1 := abs_le.1 (hvr a ha)
      have e2 := abs_le.1 hwr
      have hq0 : 0 ≤ a / w := div_nonneg ha1 hwpos.le
      have hq1 : a / w ≤ 1 := (div_le_one hwpos).2 ha2
      have e3 : |s - a / w| ≤ ε := by
        have := hrel _ _ hs
        rw [abs_of_nonneg hq0, max_eq_left hq1, mul_one] at this
        exact this
      have e4 : |t - s * K| ≤ ε * K := by
        refine (hrel _ _ ht).trans ?_
        apply mul_le_mul_of_nonneg_left _ hε
        rw [abs_of_nonneg (mul_nonneg hs1 hKq.le)]
        have : (1 : Rat) ≤ K := by exact_mod_cast hK0
        exact max_le this (by nlinarith)
      have e5 := ratio_err hε hε' h1.le h2.le hW hwpos (abs_le.2 e1) hwr
      obtain ⟨f1, f2⟩ := floor_cast ht1
      have hfin := code_err hKq f1 f2 e4 e3 e5
      have hrw : (v - mn) / (mx - mn) * (mx - mn) = v - mn := div_mul_cancel₀ _ hW.ne'
      have hD : deq K ⌊t⌋.toNat mn mx - v = ((⌊t⌋.toNat : Rat) / K - (v - mn) / (mx - mn)) * (mx - mn) := by
        rw [sub_mul, hrw]; unfold deq; ring
      rw [hD, abs_mul, abs_of_pos hW]
      exact mul_le_mul_of_nonneg_right hfin hW.le
    · subst h1
      rw [hend0] at hc; cases hc
      simpa [deq] using hb
  · subst h2
    rw [hendK] at hc; cases hc
    have : deq K K mn v - v = 0 := by unfold deq; rw [div_self hKq.ne']; ring
    rw [this, abs_zero]; exact hb

/-! ### Distances of 8-bit codes -/

theorem C74_sq8_distance : ∀ (xs ys : List Nat) (mns mxs : List Rat), l2sq8 xs ys mns mxs = l2spec 255 xs ys mns mxs ∧
    ipsq8 xs ys mns mxs = ipspec 255 xs ys mns mxs := by
  intro xs
  induction xs with
  | nil => intro ys mns mxs; simp [l2sq8, l2spec, ipsq8, ipspec]
  | cons x xs ih =>
    intro ys mns mxs
    rcases ys with _ | ⟨y, ys⟩
    · simp [l2sq8, l2spec, ipsq8, ipspec]
    rcases mns with _ | ⟨mn, mns⟩
    · simp [l2sq8, l2spec, ipsq8, ipspec]
    rcases mxs with _ | ⟨mx, mxs⟩
    · simp [l2sq8, l2spec, ipsq8, ipspec]
    obtain ⟨h1, h2⟩ := ih ys mns mxs
    simp only [l2sq8, l2spec, ipsq8, ipspec, h1, h2, deq]
    push_cast
    constructor <;> ring

/-- A coordinate inside of its range, with relative rounding errors at most ε in the two differences. -/
def Good (rd : Rat → X) (ε v mn mx : Rat) : Prop :=
  mn ≤ v ∧ v ≤ mx ∧ (∃ w, rd (mx - mn) = .num w ∧ |w - (mx - mn)| ≤ ε * (mx - mn)) ∧
    ∀ a, rd (v - mn) = .num a → |a - (v - mn)| ≤ ε * (v - mn)

/-- All coordinates of a vector are. -/
def AllGood (rd : Rat → X) (ε : Rat) : List Rat → List Rat → List Rat → Prop
  | v :: vs, mn :: mns, mx :: mxs => Good rd ε v mn mx ∧ AllGood rd ε vs mns mxs
  | [], [], [] => True
  | _, _, _ => False

/-- The true squared distance, and the squared size of the fitted box. -/
def sqdist : List Rat → List Rat → Rat
  | x :: xs, y :: ys => (x - y) ^ 2 + sqdist xs ys
  | _, _ => 0

theorem deq_range {K c : Nat} {mn mx : Rat} (hK : 0 < K) (hc : c ≤ K) (h : mn ≤ mx) : mn ≤ deq K c mn mx ∧ deq K c mn mx ≤ mx := by
  have hKq : (0 : Rat) < K := by exact_mod_cast hK
  have h1 : (0 : Rat) ≤ (c : Rat) / K := by positivity
  have h2 : (c : Rat) / K ≤ 1 := (div_le_one hKq).2 (by exact_mod_cast hc)
  unfold deq
  constructor <;> nlinarith

/-- One coordinate: defined, at most K, and decoded within (1/K + 5ε) of the range. -/
theorem good_code (rd : Rat → X) (K : Nat) (hr : Rounding rd K) (hK : K ≤ 255) (hK0 : 0 < K) (ε : Rat) (hε : 0 ≤ ε) (hε' : ε ≤ 1 / 3)
    (hrel : ∀ x y, rd x = .num y → |y - x| ≤ ε * max 1 |x|) (v mn mx : Rat) (h : Good rd ε v mn mx) :
    ∃ c, quantize rd K (.num v) (.num mn) (.num mx) = some c ∧ c ≤ K ∧ |deq K c mn mx - v| ≤ (1 / K + 5 * ε) * (mx - mn) := by
  obtain ⟨h1, h2, ⟨w, hw, hwr⟩, ha⟩ := h
  rcases (h1.trans h2).lt_or_eq with hlt | heq
  · have hwpos : 0 < w := by
      have := (abs_le.1 hwr).1
      nlinarith
    obtain ⟨hd, _, _⟩ := C74_codes rd K hr hK mn mx w hw (fun _ => hwpos) hlt.le
    obtain ⟨c, hc, hcK⟩ := hd v
    exact ⟨c, hc, hcK, C74_error rd K hr hK hK0 ε hε hε' hrel v mn mx w h1 h2 hlt hw hwr ha c hc⟩
  · subst heq
    have : v = mn := le_antisymm h2 h1
    subst this
    exact ⟨0, by simp [quantize, X.eq], by omega, by simp [deq]⟩

/-- The 8-bit distance of two vectors inside of the fitted box against the distance of the vectors: off by at most 4(1/255 + 5ε) of the
squared size of the box. -/
theorem C74_sq8_error (rd : Rat → X) (hr : Rounding rd 255) (ε : Rat) (hε : 0 ≤ ε) (hε' : ε ≤ 1 / 3)
    (hrel : ∀ x y, rd x = .num y → |y - x| ≤ ε * max 1 |x|) : ∀ (xs ys mns mxs : List Rat), AllGood rd ε xs mns mxs → AllGood rd ε ys mns mxs →
    ∃ cx cy, encode8 rd (xs.map .num) (mns.map .num) (mxs.map .num) = some cx ∧
      encode8 rd (ys.map .num) (mns.map .num) (mxs.map .num) = some cy ∧ cx.length = xs.length ∧ cy.length = ys.length ∧
      |l2sq8 cx cy mns mxs - sqdist xs ys| ≤ 4 * (1 / 255 + 5 * ε) * sqdist mxs mns := by
  intro xs
  induction xs with
  | nil =>
    intro ys mns mxs h1 h2
    rcases mns with _ | ⟨mn, mns⟩ <;> rcases mxs with _ | ⟨mx, mxs⟩ <;> simp [AllGood] at h1
    rcases ys with _ | ⟨y, ys⟩ <;> simp [AllGood] at h2
    exact ⟨[], [], rfl, rfl, rfl, rfl, by simp [l2sq8, sqdist]⟩
  | cons x xs ih =>
    intro ys mns mxs h1 h2
    rcases mns with _ | ⟨mn, mns⟩ <;> rcases mxs with _ | ⟨mx, mxs⟩ <;> simp only [AllGood] at h1
    rcases ys with _ | ⟨y, ys⟩ <;> simp only [AllGood] at h2
    obtain ⟨cx, cy, e1, e2, l1, l2, e3⟩ := ih ys mns mxs h1.2 h2.2
    obtain ⟨a, ha, hak, hae⟩ := good_code rd 255 hr (by omega) (by omega) ε hε hε' hrel x mn mx h1.1
    obtain ⟨b, hb, hbk, hbe⟩ := good_code rd 255 hr (by omega) (by omega) ε hε hε' hrel y mn mx h2.1
    refine ⟨a :: cx, b :: cy, by simp [encode8, ha, e1], by simp [encode8, hb, e2], by simp [l1], by simp [l2], ?_⟩
    have hle : mn ≤ mx := h1.1.1.trans h1.1.2.1
    obtain ⟨r1, r2⟩ := deq_range (K := 255) (by omega) hak hle
    obtain ⟨r3, r4⟩ := deq_range (K := 255) (by omega) hbk hle
    rw [(C74_sq8_distance cx cy mns mxs).1] at e3
    rw [(C74_sq8_distance (a :: cx) (b :: cy) (mn :: mns) (mx :: mxs)).1]
    simp only [l2spec, sqdist]
    have hx := h1.1.1; have hx' := h1.1.2.1; have hy := h2.1.1; have hy' := h2.1.2.1
    push_cast at hae hbe
    generalize hD : (1 / 255 + 5 * ε : Rat) = δ at *
    have hδ : 0 ≤ δ := by rw [← hD]; positivity
    generalize deq 255 a mn mx = p at *
    generalize deq 255 b mn mx = q at *
    have hW : 0 ≤ mx - mn := by linarith
    have k1 := abs_le.1 hae
    have k2 := abs_le.1 hbe
    have hs : |(p - q) - (x - y)| ≤ 2 * δ * (mx - mn) := by rw [abs_le]; constructor <;> linarith
    have ht : |(p - q) + (x - y)| ≤ 2 * (mx - mn) := by rw [abs_le]; constructor <;> linarith
    have hst : |(p - q) ^ 2 - (x - y) ^ 2| ≤ 4 * δ * (mx - mn) ^ 2 := by
      have : (p - q) ^ 2 - (x - y) ^ 2 = ((p - q) - (x - y)) * ((p - q) + (x - y)) := by ring
      rw [this, abs_mul]
      calc _ ≤ (2 * δ * (mx - mn)) * (2 * (mx - mn)) := mul_le_mul hs ht (abs_nonneg _) (by positivity)
        _ = _ := by ring
    have m1 := abs_le.1 hst
    have m2 := abs_le.1 e3
    rw [abs_le]
    constructor <;> linarith

/-! ### 4 bits -/

/-- The codes of all coordinates, before packing. -/
def codes (rd : Rat → X) (K : Nat) : List X → List X → List X → Option (List Nat)
  | v :: vs, mn :: mns, mx :: mxs =>
    match quantize rd K v mn mx, codes rd K vs mns mxs with
    | some c, some cs => some (c :: cs)
    | _, _ => none
  | _, _, _ => some []

/-- What the distance makes of the codes: the two of a pair exchanged, a single last one replaced by 0. -/
def swapped : List Nat → List Nat
  | a :: b :: cs => b :: a :: swapped cs
  | [_] => [0]
  | [] => []

/-- Two codes in a byte. -/
def pack : List Nat → List Nat
  | a :: b :: cs => ((a <<< 4 ||| b) % 256) :: pack cs
  | [a] => [(a <<< 4 ||| 0) % 256]
  | [] => []

theorem lo_hi (a b : Nat) (ha : a ≤ 15) (hb : b ≤ 15) : lo ((a <<< 4 ||| b) % 256) = b ∧ hi ((a <<< 4 ||| b) % 256) = a := by
  have : ∀ a : Fin 16, ∀ b : Fin 16, lo ((a.1 <<< 4 ||| b.1) % 256) = b.1 ∧ hi ((a.1 <<< 4 ||| b.1) % 256) = a.1 := by decide +kernel
  exact this ⟨a, by omega⟩ ⟨b, by omega⟩

theorem encode4_pack (rd : Rat → X) : ∀ (n : Nat) (vs mns mxs : List X), vs.length ≤ n → mns.length = vs.length → mxs.length = vs.length →
    encode4 rd vs mns mxs = (codes rd 15 vs mns mxs).map pack := by
  intro n
  induction n using Nat.strongRecOn with
  | ind n ih =>
    intro vs mns mxs hn h1 h2
    rcases vs with _ | ⟨v, _ | ⟨w, vs⟩⟩
    · simp [encode4, codes, pack]
    · rcases mns with _ | ⟨m, _ | ⟨m', mns⟩⟩ <;> simp at h1
      rcases mxs with _ | ⟨k, _ | ⟨k', mxs⟩⟩ <;> simp at h2
      simp only [encode4, codes]
      cases quantize rd 15 v m k <;> simp [pack]
    · rcases mns with _ | ⟨m, _ | ⟨m', mns⟩⟩ <;> simp at h1
      rcases mxs with _ | ⟨k, _ | ⟨k', mxs⟩⟩ <;> simp at h2
      simp only [List.length_cons] at hn
      have := ih (n - 2) (by omega) vs mns mxs (by omega) h1 h2
      simp only [encode4, codes, this]
      cases quantize rd 15 v m k <;> cases quantize rd 15 w m' k' <;> cases codes rd 15 vs mns mxs <;> simp [pack]

/-- What the 4-bit distances compute, for every dimension: the distance of other vectors, with the two codes of each pair exchanged and the
last code of an odd number dropped. -/
theorem C74_sq4_swapped : ∀ (n : Nat) (xs ys : List Nat) (mns mxs : List Rat), xs.length ≤ n → ys.length = xs.length → mns.length = xs.length →
    mxs.length = xs.length → (∀ c ∈ xs, c ≤ 15) → (∀ c ∈ ys, c ≤ 15) →
    l2sq4 (pack xs) (pack ys) mns mxs = l2spec 15 (swapped xs) (swapped ys) mns mxs ∧
    ipsq4 (pack xs) (pack ys) mns mxs = ipspec 15 (swapped xs) (swapped ys) mns mxs := by
  intro n
  induction n using Nat.strongRecOn with
  | ind n ih =>
    intro xs ys mns mxs hn h1 h2 h3 hx hy
    rcases xs with _ | ⟨a, _ | ⟨b, xs⟩⟩
    · simp at h1; subst h1
      simp [pack, swapped, l2sq4, l2spec, ipsq4, ipspec]
    · rcases ys with _ | ⟨c, _ | ⟨d, ys⟩⟩ <;> simp at h1
      rcases mns with _ | ⟨m, _ | ⟨m', mns⟩⟩ <;> simp at h2
      rcases mxs with _ | ⟨k, _ | ⟨k', mxs⟩⟩ <;> simp at h3
      obtain ⟨e1, _⟩ := lo_hi a 0 (hx a (by simp)) (by omega)
      obtain ⟨e2, _⟩ := lo_hi c 0 (hy c (by simp)) (by omega)
      simp only [pack, swapped, l2sq4, l2spec, ipsq4, ipspec, term4, prod4, deq, e1, e2]
      push_cast
      constructor <;> ring
    · rcases ys with _ | ⟨c, _ | ⟨d, ys⟩⟩ <;> simp at h1
      rcases mns with _ | ⟨m, _ | ⟨m', mns⟩⟩ <;> simp at h2
      rcases mxs with _ | ⟨k, _ | ⟨k', mxs⟩⟩ <;> simp at h3
      simp only [List.length_cons] at hn
      obtain ⟨i1, i2⟩ := ih (n - 2) (by omega) xs ys mns mxs (by omega) h1 h2 h3 (fun c hc => hx c (by simp [hc]))
        (fun c hc => hy c (by simp [hc]))
      obtain ⟨e1, e2⟩ := lo_hi a b (hx a (by simp)) (hx b (by simp))
      obtain ⟨e3, e4⟩ := lo_hi c d (hy c (by simp)) (hy d (by simp))
      simp only [pack, swapped, l2sq4, l2spec, ipsq4, ipspec, term4, prod4, deq, e1, e2, e3, e4, i1, i2]
      push_cast
      constructor <;> ring

/-- Both coordinates of each pair have the same range, and there is no single last one. -/
def Paired : List Rat → List Rat → Prop
  | m :: m' :: mns, k :: k' :: mxs => m = m' ∧ k = k' ∧ Paired mns mxs
  | [], [] => True
  | _, _ => False

/-- In that case the 4-bit distances are those of the decoded vectors.  Missing: every other case, see `C74_sq4_swap_refuted`. -/
theorem C74_sq4_even_partial : ∀ (n : Nat) (xs ys : List Nat) (mns mxs : List Rat), xs.length ≤ n → ys.length = xs.length →
    mns.length = xs.length → mxs.length = xs.length → (∀ c ∈ xs, c ≤ 15) → (∀ c ∈ ys, c ≤ 15) → Paired mns mxs →
    l2sq4 (pack xs) (pack ys) mns mxs = l2spec 15 xs ys mns mxs ∧ ipsq4 (pack xs) (pack ys) mns mxs = ipspec 15 xs ys mns mxs := by
  intro n xs ys mns mxs hn h1 h2 h3 hx hy hp
  obtain ⟨e1, e2⟩ := C74_sq4_swapped n xs ys mns mxs hn h1 h2 h3 hx hy
  rw [e1, e2]
  clear e1 e2 hx hy
  induction n using Nat.strongRecOn generalizing xs ys mns mxs with
  | ind n ih =>
    rcases xs with _ | ⟨a, _ | ⟨b, xs⟩⟩
    · simp at h1; subst h1; simp [swapped]
    · rcases mns with _ | ⟨m, _ | ⟨m', mns⟩⟩ <;> simp at h2
      rcases mxs with _ | ⟨k, _ | ⟨k', mxs⟩⟩ <;> simp [Paired] at hp
    · rcases ys with _ | ⟨c, _ | ⟨d, ys⟩⟩ <;> simp at h1
      rcases mns with _ | ⟨m, _ | ⟨m', mns⟩⟩ <;> simp at h2
      rcases mxs with _ | ⟨k, _ | ⟨k', mxs⟩⟩ <;> simp at h3
      simp only [List.length_cons] at hn
      simp only [Paired] at hp
      obtain ⟨rfl, rfl, hp⟩ := hp
      obtain ⟨i1, i2⟩ := ih (n - 2) (by omega) xs ys mns mxs (by omega) h1 h2 h3 hp
      simp only [swapped, l2spec, ipspec, i1, i2]
      constructor <;> ring

/-- Two vectors that differ only in the last of an odd number of coordinates have distance 0 in 4 bits, whatever the ranges. -/
theorem C74_sq4_odd_refuted (xs : List Nat) (a b : Nat) (mns mxs : List Rat) (hodd : xs.length % 2 = 0) (h2 : mns.length = xs.length + 1)
    (h3 : mxs.length = xs.length + 1) (hx : ∀ c ∈ xs, c ≤ 15) (ha : a ≤ 15) (hb : b ≤ 15) :
    l2sq4 (pack (xs ++ [a])) (pack (xs ++ [b])) mns mxs = 0 := by
  have hs : ∀ n, ∀ (xs : List Nat), xs.length ≤ n → xs.length % 2 = 0 → swapped (xs ++ [a]) = swapped (xs ++ [b]) := by
    intro n
    induction n using Nat.strongRecOn with
    | ind n ih =>
      intro xs hn h
      rcases xs with _ | ⟨c, _ | ⟨d, xs⟩⟩
      · rfl
      · simp at h
      · simp only [List.length_cons] at hn h
        simp [swapped, ih (n - 2) (by omega) xs (by omega) (by omega)]
  have hz : ∀ (xs : List Nat) (mns mxs : List Rat), l2spec 15 xs xs mns mxs = 0 := by
    intro xs
    induction xs with
    | nil => intros; simp [l2spec]
    | cons x xs ih =>
      intro mns mxs
      rcases mns with _ | ⟨m, mns⟩ <;> rcases mxs with _ | ⟨k, mxs⟩ <;> simp [l2spec, ih]
  rw [(C74_sq4_swapped _ (xs ++ [a]) (xs ++ [b]) mns mxs (le_refl _) (by simp) (by simp [h2]) (by simp [h3])
    (by intro c hc; simp at hc; rcases hc with hc | rfl; exacts [hx c hc, ha])
    (by intro c hc; simp at hc; rcases hc with hc | rfl; exacts [hx c hc, hb])).1, hs _ xs (le_refl _) hodd, hz]

/-- The other vector is not at distance 0 in fact: one coordinate, range from 0 to 15, values 0 and 15. -/
theorem C74_sq4_one_refuted : encode4 .num [.num 0] [.num 0] [.num 15] = some (pack ([] ++ [0])) ∧
    encode4 .num [.num 15] [.num 0] [.num 15] = some (pack ([] ++ [15])) ∧
    l2sq4 (pack ([] ++ [0])) (pack ([] ++ [15])) [0] [15] = 0 ∧ l2spec 15 [0] [15] [0] [15] = 225 := by
  refine ⟨by decide +kernel, by decide +kernel, C74_sq4_odd_refuted [] 0 15 [0] [15] rfl rfl rfl (by simp) (by omega) (by omega), by decide +kernel⟩

/-- Ranges 0 to 15 and 0 to 1500: to the vector (0, 0) the vector (15, 0) is at distance 15 and (0, 300) at distance 300, and the distances
of the codes are 1500 and 3: the farther is taken for the nearer. -/
theorem C74_sq4_swap_refuted :
    encode4 .num [.num 0, .num 0] [.num 0, .num 0] [.num 15, .num 1500] = some [0] ∧
    encode4 .num [.num 15, .num 0] [.num 0, .num 0] [.num 15, .num 1500] = some [240] ∧
    encode4 .num [.num 0, .num 300] [.num 0, .num 0] [.num 15, .num 1500] = some [3] ∧
    sqdist [0, 0] [15, 0] = 15 ^ 2 ∧ sqdist [0, 0] [0, 300] = 300 ^ 2 ∧
    l2sq4 [0] [240] [0, 0] [15, 1500] = 1500 ^ 2 ∧ l2sq4 [0] [3] [0, 0] [15, 1500] = 3 ^ 2 :=
  ⟨by decide +kernel, by decide +kernel, by decide +kernel, by decide +kernel, by decide +kernel, by decide +kernel, by decide +kernel⟩

/-! ### Outside of the range -/

/-- Values beyond the fitted range all get the code of its end. -/
theorem C74_clamp_refuted (rd : Rat → X) (K : Nat) (mn mx v : Rat) (h : mn < mx) :
    (mx ≤ v → quantize rd K (.num v) (.num mn) (.num mx) = some K) ∧ (v ≤ mn → quantize rd K (.num v) (.num mn) (.num mx) = some 0) := by
  have hne : mx ≠ mn := h.ne'
  constructor
  · intro hv
    have : mx < v ∨ mx = v := hv.lt_or_eq
    simp [quantize, X.eq, X.le, X.lt, hne, this]
  · intro hv
    have h1 : v < mn ∨ v = mn := hv.lt_or_eq
    have h2 : ¬ (mx < v ∨ mx = v) := by rintro (h' | h') <;> linarith
    simp [quantize, X.eq, X.le, X.lt, hne, h1, h2]

/-- So vectors inserted later can be at distance 0 from each other and at any distance in fact: range 0 to 1, values 2 and 1000. -/
theorem C74_insert_refuted : encode8 .num [.num 2] [.num 0] [.num 1] = some [255] ∧ encode8 .num [.num 1000] [.num 0] [.num 1] = some [255] ∧
    l2sq8 [255] [255] [0] [1] = 0 ∧ sqdist [2] [1000] = 998 ^ 2 :=
  ⟨by decide +kernel, by decide +kernel, by decide +kernel, by decide +kernel⟩

/-- With no vector fitted every finite value gets the code K. -/
theorem C74_empty_refuted (rd : Rat → X) (K : Nat) (big v : Rat) (hb : 0 < big) (hv : -big ≤ v) :
    fit (init 1 big) [] = ⟨[.num big], [.num (-big)]⟩ ∧ quantize rd K (.num v) (.num big) (.num (-big)) = some K := by
  refine ⟨rfl, ?_⟩
  have h1 : ¬ (-big = big) := by intro h; linarith
  have h2 : -big < v ∨ -big = v := hv.lt_or_eq
  simp [quantize, X.eq, X.le, X.lt, h1, h2]

/-- A NaN is undefined behaviour in the conversion for every range, and fitting ignores it, so nothing tells. -/
theorem C74_nan_refuted (rd : Rat → X) (K : Nat) (mn mx : Rat) (h : mn ≠ mx) :
    quantize rd K .nan (.num mn) (.num mx) = none ∧ fit ⟨[.num mn], [.num mx]⟩ [[.nan]] = ⟨[.num mn], [.num mx]⟩ := by
  refine ⟨?_, by simp [fit, fitRow, X.lt]⟩
  have : mx ≠ mn := fun e => h e.symm
  simp only [quantize, X.eq, X.le, X.lt, this, decide_false, Bool.or_self, Bool.false_eq_true, if_false, X.sub]
  cases rd (mx - mn) <;> simp [X.div, X.mulNat, X.cast8]

/-- A rounding that overflows above 10 and is exact otherwise. -/
def small (q : Rat) : X := if q ≤ -11 then .ninf else if 11 ≤ q then .inf else .num q

/-- If the width of the range overflows, every value in the range whose distance from its lower end overflows too is undefined, and the
others get 0: range -8 to 8, values 5 and 1. -/
theorem C74_overflow_refuted : quantize small 255 (.num 5) (.num (-8)) (.num 8) = none ∧
    quantize small 255 (.num 1) (.num (-8)) (.num 8) = some 0 := ⟨by decide +kernel, by decide +kernel⟩

/-! ### The hypotheses can be met -/

theorem exact_rounding (K : Nat) : Rounding .num K where
  mono := by
    intro a b h
    have : a < b ∨ a = b := h.lt_or_eq
    simp [X.le, X.lt, X.eq, this]
  zero := rfl
  one := rfl
  top := rfl

/-- Rounding down to multiples of 2^-10. -/
def down (q : Rat) : X := .num (⌊q * 1024⌋ / 1024)

theorem down_rounding (K : Nat) : Rounding down K where
  mono := by
    intro a b h
    have h1 : (⌊a * 1024⌋ : Rat) ≤ ⌊b * 1024⌋ := by
      exact_mod_cast Int.floor_le_floor (by linarith)
    have h2 : (⌊a * 1024⌋ : Rat) / 1024 ≤ ⌊b * 1024⌋ / 1024 := by linarith
    have := h2.lt_or_eq
    simp only [down, X.le, X.lt, X.eq, Bool.or_eq_true, decide_eq_true_eq]
    exact this
  zero := by simp [down]
  one := by decide +kernel
  top := by
    have : ((K : Rat) * 1024) = ((K * 1024 : Int) : Rat) := by push_cast; ring
    simp only [down]
    rw [this, Int.floor_intCast]
    push_cast
    congr 1
    ring

theorem down_error (x y : Rat) (h : down x = .num y) : |y - x| ≤ 1 / 1024 * max 1 |x| := by
  simp only [down, X.num.injEq] at h
  have h1 := Int.floor_le (x * 1024)
  have h2 := Int.lt_floor_add_one (x * 1024)
  have h3 : |y - x| ≤ 1 / 1024 := by rw [← h, abs_le]; constructor <;> linarith
  have h4 : (1 : Rat) ≤ max 1 |x| := le_max_left _ _
  linarith

/-- Two vectors of a box of sides 10 and 4 under that rounding. -/
example : AllGood down (1 / 1024) [3, 7 / 2] [0, 1] [10, 5] ∧ AllGood down (1 / 1024) [8, 1] [0, 1] [10, 5] := by
  have e : ∀ n : Nat, down n = .num n := fun n => (down_rounding n).top
  have g : ∀ v mn mx : Rat, mn ≤ v → v ≤ mx → down (mx - mn) = .num (mx - mn) → down (v - mn) = .num (v - mn) →
      Good down (1 / 1024) v mn mx := by
    intro v mn mx h1 h2 h3 h4
    refine ⟨h1, h2, ⟨_, h3, ?_⟩, ?_⟩
    · simp; linarith
    · intro a ha; rw [h4] at ha; cases ha; simp; linarith
  refine ⟨⟨g _ _ _ ?_ ?_ ?_ ?_, g _ _ _ ?_ ?_ ?_ ?_, trivial⟩, ⟨g _ _ _ ?_ ?_ ?_ ?_, g _ _ _ ?_ ?_ ?_ ?_, trivial⟩⟩ <;> decide +kernel

/-- The codes of the first, and its 4-bit pair. -/
example : encode8 down [.num 3, .num (7 / 2)] [.num 0, .num 1] [.num 10, .num 5] = some [76, 159] ∧
    Paired [0, 0, 1, 1] [10, 10, 5, 5] := ⟨by decide +kernel, by simp [Paired]⟩

end Alaya.Sq
