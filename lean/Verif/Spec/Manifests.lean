import Verif.Model.DiskManifest
import Verif.Spec.ManifestText
import Verif.Lemmas.DecimalParse

/-! What the entries of a manifest text must be to describe a manifest. -/
namespace Alaya.DiskManifest
open Alaya Alaya.DiskFlat

/-- Names of segments: `seg_` and eight digits. -/
def SegName (s : Bytes) : Prop := ∃ ds, s = str "seg_" ++ ds ∧ ds.length = 8 ∧ ∀ c ∈ ds, 48 ≤ c.toNat ∧ c.toNat ≤ 57

/-- Names of files inside a segment directory: no path separator, not `.` or `..`, no NUL. -/
def BaseName (s : Bytes) : Prop := s ≠ [] ∧ s ≠ str "." ∧ s ≠ str ".." ∧ 47 ∉ s ∧ 0 ∉ s

/-- The key is in the extension name space. -/
def Ext (k : Bytes) : Prop := ∃ r, k = str "x_" ++ r

/-- The entries describe the segment manifest: every key at most once, each required key present with a proper value, every
other key an extension, and the extensions kept. -/
structure SegDescribes (es : List (Bytes × Bytes)) (m : SegMan) : Prop where
  once : (es.map (·.1)).Nodup
  version : ∃ v, (str "version", v) ∈ es ∧ IsDecimal v m.version
  version1 : m.version = 1
  segmentId : (str "segment_id", m.segmentId) ∈ es
  segmentName : SegName m.segmentId
  engine : (str "index_type", m.engine.name) ∈ es
  metric : (str "metric", metricName m.metric) ∈ es
  dim : ∃ v, (str "dim", v) ∈ es ∧ IsDecimal v m.dim
  dimPos : 0 < m.dim ∧ m.dim < 2 ^ 64
  count : ∃ v, (str "count", v) ∈ es ∧ IsDecimal v m.count
  countPos : 0 < m.count ∧ m.count < 2 ^ 64
  idsFile : (str "ids_file", m.idsFile) ∈ es
  idsName : BaseName m.idsFile
  vectorsFile : (str "vectors_file", m.vectorsFile) ∈ es
  vectorsName : m.vectorsFile = [] ∨ BaseName m.vectorsFile
  known : ∀ e ∈ es, e.1 ∈ segRequired ∨ Ext e.1
  extrasAsc : m.extras.Pairwise (fun a b => a.1 < b.1)
  extras : ∀ e, e ∈ m.extras ↔ e ∈ es ∧ Ext e.1

/-- The entries list the segments: either `segment` entries in order, or one `segments` entry with a comma separated list. -/
def ListsSegs (es : List (Bytes × Bytes)) (segs : List Bytes) : Prop :=
  (str "segments" ∉ es.map (·.1) ∧ segs = (es.filter (fun e => e.1 == str "segment")).map (·.2)) ∨
    (str "segment" ∉ es.map (·.1) ∧ (∃ v, (es.filter (fun e => e.1 == str "segments")) = [(str "segments", v)] ∧
      ManifestText.IsLines 44 v segs))

/-- The entries describe the collection manifest. -/
structure ColDescribes (es : List (Bytes × Bytes)) (m : ColMan) : Prop where
  once : ((es.map (·.1)).filter (fun k => !(k == str "segment") && !(k == str "segments"))).Nodup
  version : ∃ v, (str "version", v) ∈ es ∧ IsDecimal v m.version
  version1 : m.version = 1
  dim : ∃ v, (str "dim", v) ∈ es ∧ IsDecimal v m.dim
  dimPos : 0 < m.dim ∧ m.dim < 2 ^ 64
  metric : (str "metric", metricName m.metric) ∈ es
  engine : (str "index_type", m.engine.name) ∈ es
  next : ∃ v, (str "next_segment_id", v) ∈ es ∧ IsDecimal v m.next
  nextLt : m.next < 2 ^ 64
  segs : ListsSegs es m.segs
  segNames : ∀ s ∈ m.segs, SegName s
  known : ∀ e ∈ es, e.1 ∈ colRequired ∨ e.1 = str "segment" ∨ e.1 = str "segments" ∨ Ext e.1
  extrasAsc : m.extras.Pairwise (fun a b => a.1 < b.1)
  extras : ∀ e, e ∈ m.extras ↔ e ∈ es ∧ Ext e.1

/-- A manifest whose strings survive a line of text. -/
def LineValue (v : Bytes) : Prop :=
  10 ∉ v ∧ (∀ c, v.head? = some c → ¬ ManifestText.Ws c) ∧ (∀ c, v.getLast? = some c → ¬ ManifestText.Ws c)

/-- An extension key that survives a line of text. -/
def ExtKey (k : Bytes) : Prop := Ext k ∧ LineValue k ∧ 61 ∉ k

/-- Manifests that may be saved. -/
structure SegMan.Valid (m : SegMan) : Prop where
  version : m.version = 1
  segmentName : SegName m.segmentId
  dim : 0 < m.dim ∧ m.dim < 2 ^ 64
  count : 0 < m.count ∧ m.count < 2 ^ 64
  idsName : BaseName m.idsFile ∧ LineValue m.idsFile
  vectorsName : m.vectorsFile = [] ∨ (BaseName m.vectorsFile ∧ LineValue m.vectorsFile)
  extrasAsc : m.extras.Pairwise (fun a b => a.1 < b.1)
  extras : ∀ e ∈ m.extras, ExtKey e.1 ∧ LineValue e.2

structure ColMan.Valid (m : ColMan) : Prop where
  version : m.version = 1
  dim : 0 < m.dim ∧ m.dim < 2 ^ 64
  next : m.next < 2 ^ 64
  segNames : ∀ s ∈ m.segs, SegName s
  extrasAsc : m.extras.Pairwise (fun a b => a.1 < b.1)
  extras : ∀ e ∈ m.extras, ExtKey e.1 ∧ LineValue e.2

end Alaya.DiskManifest
