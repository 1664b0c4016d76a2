import Verif.Model.Chunker

/-!
# What a user expects of the chunks
-/

namespace Alaya.Chunker

/-- The text without white space. -/
def ink (U : Tables) (t : Text) : Text := t.filter (fun c => !U.ws c)

/-- The text `d` is the pieces in order, with nothing but gaps before, between and behind them. -/
def Laid (gap : Char → Bool) : List Text → Text → Prop
  | [], d => ∀ c ∈ d, gap c = true
  | s :: l, d => ∃ w r, d = w ++ s ++ r ∧ (∀ c ∈ w, gap c = true) ∧ Laid gap l r

/-- Not empty, and with no white space at either end. -/
structure Trimmed (U : Tables) (s : Text) : Prop where
  some : s ≠ []
  first : ∀ c t, s = c :: t → U.ws c = false
  last : ∀ c t, s = t ++ [c] → U.ws c = false

/-- The `i`-th window of `size` elements when one window starts `step` elements after the other. -/
def window {α : Type} (l : List α) (size step i : Nat) : List α := (l.drop (i * step)).take size

/-- All the windows that start within the list. -/
def windows {α : Type} (l : List α) (size step : Nat) : List (List α) :=
  (List.range ((l.length + step - 1) / step)).map (window l size step)

/-- The characters that end a sentence. -/
def stops : List Char := ['.', '?', '!', '。', '？', '！']

/-- The tables know the blank and do not take a terminator for white space. -/
structure Tables.Sane (U : Tables) : Prop where
  blank : U.ws ' ' = true
  term : ∀ c ∈ stops, U.ws c = false

/-- A sentence may end after the text `p`: it ends with a terminator, not with a title such as "Dr." (a capital, a
small letter and a full stop), and not with an abbreviation and one more character such as "e.g." -/
structure Ends (U : Tables) (p : Text) : Prop where
  term : ∃ q c, p = q ++ [c] ∧ c ∈ stops
  title : ∀ q x y, p = q ++ [x, y, '.'] → 'A' ≤ x → x ≤ 'Z' → 'a' ≤ y → y ≤ 'z' → False
  abbr : ∀ q a b c, p = q ++ [a, '.', b, c] → U.word a = true → U.word b = true → c ≠ '\n' → False

/-- The two windows around the place after `k` sentences are less similar than the threshold. -/
def Dissimilar {E : Type} (less : List E → List E → Bool) (emb : List E) (w k : Nat) : Prop :=
  less ((emb.drop (k - w)).take w) ((emb.drop k).take w) = true

end Alaya.Chunker
