import Mathlib.Data.List.Basic

/-!
# Cutting documents into chunks

python/src/alayalite/rag/chunker/sentence_chunker.py and semantic_chunker.py.  (`FixSizeChunker` hands
everything to a third-party splitter and is not modelled.)

Simplifications.
* Python's tables of white space (`\s` and `str.strip`, the same table) and of word characters (`\w`)
  are arbitrary; where it matters, the blank is white space and the sentence terminators are not.
* The embedding model and the cosine of the means of two windows, compared with the threshold, are an
  arbitrary Boolean function of the two windows (`less`); the mean of an empty window is NaN, for which
  the comparison is false.
* A loop that does not end is a function of a number of rounds that gives no result for any number.
-/

namespace Alaya.Chunker

abbrev Text := List Char

/-- Unicode tables: white space and word characters. -/
structure Tables where
  ws : Char → Bool
  word : Char → Bool

/-- `\.|\?|\!|。|？|！`. sentence_chunker.py:36 -/
def terminators : List Char := ['.', '?', '!', '。', '？', '！']

/-- `(?<!\w\.\w.)`: what must not be behind (the text before the place, last character first).
sentence_chunker.py:36 -/
def dotted (U : Tables) : Text → Bool
  | c :: b :: d :: a :: _ => U.word a && decide (d = '.') && U.word b && decide (c ≠ '\n')
  | _ => false

/-- `(?<![A-Z][a-z]\.)`. sentence_chunker.py:36 -/
def titled : Text → Bool
  | d :: y :: x :: _ => decide (d = '.') && decide ('a' ≤ y) && decide (y ≤ 'z') && decide ('A' ≤ x) && decide (x ≤ 'Z')
  | _ => false

/-- `(?<=\.|\?|\!|。|？|！)`. sentence_chunker.py:36 -/
def ended : Text → Bool
  | c :: _ => decide (c ∈ terminators)
  | [] => false

/-- The pattern matches at this place. -/
def breaks (U : Tables) (behind : Text) : Bool := !dotted U behind && !titled behind && ended behind

/-- `re.split`: `skip` while the match runs over white space, `behind` the text read so far (last character
first), `cur` the current piece (last character first).  A match of no characters also splits.
sentence_chunker.py:36 -/
def split (U : Tables) : Bool → Text → Text → Text → List Text
  | skip, behind, cur, [] => if !skip && breaks U behind then [cur.reverse, []] else [cur.reverse]
  | true, behind, cur, c :: t =>
    if U.ws c then split U true (c :: behind) cur t else split U false (c :: behind) (c :: cur) t
  | false, behind, cur, c :: t =>
    if breaks U behind then
      cur.reverse :: (if U.ws c then split U true (c :: behind) [] t else split U false (c :: behind) [c] t)
    else split U false (c :: behind) (c :: cur) t

/-- `str.strip()`. -/
def strip (U : Tables) (s : Text) : Text := ((s.dropWhile U.ws).reverse.dropWhile U.ws).reverse

/-- `[s.strip() for s in … if s.strip()]`. sentence_chunker.py:37; semantic_chunker.py:116 -/
def cleaned (U : Tables) (l : List Text) : List Text := (l.map (strip U)).filter (fun s => !s.isEmpty)

/-- The sentences of `SentenceChunker`. sentence_chunker.py:36-37 -/
def sentences (U : Tables) (doc : Text) : List Text := cleaned U (split U false [] [] doc)

/-- The index of a Python slice. -/
def sliceAt (len : Nat) (i : Int) : Nat := if i < 0 then (i + len).toNat else min i.toNat len

/-- `l[a:b]`. -/
def slice {α : Type} (l : List α) (a b : Int) : List α :=
  (l.drop (sliceAt l.length a)).take (sliceAt l.length b - sliceAt l.length a)

/-- The loop of `SentenceChunker.chunking`; `none` when it has not ended after so many rounds.
sentence_chunker.py:39-50 -/
def chunkLoop {α : Type} (l : List α) (size overlap : Int) : Nat → Int → Option (List (List α))
  | 0, _ => none
  | k + 1, start =>
    if start < l.length then
      (chunkLoop l size overlap k (start + (size - overlap))).map
        (slice l start (min (start + size) l.length) :: ·)
    else some []

/-- `" ".join(…)`. -/
def join : List Text → Text
  | [] => []
  | [s] => s
  | s :: t => s ++ ' ' :: join t

/-- `SentenceChunker(chunk_size, chunk_overlap).chunking(doc)`. sentence_chunker.py:23-52 -/
def sentenceChunks (U : Tables) (size overlap : Int) (rounds : Nat) (doc : Text) : Option (List Text) :=
  (chunkLoop (sentences U doc) size overlap rounds 0).map (·.map join)

/-- `text.split(".")`. semantic_chunker.py:116 -/
def splitDot (cur : Text) : Text → List Text
  | [] => [cur.reverse]
  | c :: t => if c = '.' then cur.reverse :: splitDot [] t else splitDot (c :: cur) t

/-- `_split_into_sentences`. semantic_chunker.py:113-116 -/
def parts (U : Tables) (doc : Text) : List Text := cleaned U (splitDot [] doc)

/-- `_should_split`. semantic_chunker.py:80-107 -/
def shouldSplit {E : Type} (less : List E → List E → Bool) (emb : List E) (w : Int) (i : Nat) : Bool :=
  if emb.length ≤ i + 1 then false
  else less (slice emb (max 0 (i - w + 1)) (i + 1)) (slice emb (i + 1) (min emb.length (i + w + 1)))

/-- The loop of `SemanticChunker.chunking`. semantic_chunker.py:61-78 -/
def semLoop {α : Type} (w : Int) (should : Nat → Bool) : Nat → List α → List α → List (List α)
  | _, cur, [] => if cur.isEmpty then [] else [cur]
  | i, cur, s :: t =>
    if w ≤ (cur ++ [s]).length ∧ should i = true then (cur ++ [s]) :: semLoop w should (i + 1) [] t
    else semLoop w should (i + 1) (cur ++ [s]) t

/-- The groups of sentences `SemanticChunker` makes. semantic_chunker.py:42-78 -/
def semGroups {α E : Type} (enc : List α → List E) (less : List E → List E → Bool) (w : Int) (l : List α) : List (List α) :=
  if l.isEmpty then [] else semLoop w (shouldSplit less (enc l) w) 0 [] l

/-- `SemanticChunker(…).chunking(doc)`. semantic_chunker.py:42-78 -/
def semanticChunks {E : Type} (U : Tables) (enc : List Text → List E) (less : List E → List E → Bool) (w : Int) (doc : Text) :
    List Text := (semGroups enc less w (parts U doc)).map join

end Alaya.Chunker
