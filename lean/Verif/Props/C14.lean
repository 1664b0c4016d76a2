import Verif.Lemmas.SnapshotManifest
import Verif.Props.C37

/-! C14: snapshot manifest text. -/
namespace Alaya

/-- The manifests for which the text format is faithful. -/
structure SnapManifest.Valid (m : SnapManifest) : Prop where
  version : m.formatVersion < 2 ^ 32
  applied : m.appliedThrough < 2 ^ 64
  created : m.createdMs < 2 ^ 64
  id_ne : m.snapshotId ≠ []
  id : LineSafe m.snapshotId
  reason : LineSafe m.reason
  graph : LineSafe m.graphFile
  data : LineSafe m.dataFile
  quant : LineSafe m.quantFile
  rocks : LineSafe m.rocksdbDir

/-- Every valid manifest is read back unchanged. -/
theorem C14_round_trip (m : SnapManifest) (h : m.Valid) : SnapManifest.deserialize m.serialize = some m := by
  have hnl : ∀ l ∈ m.lines, chNL ∉ l := by
    intro l hl
    have key : ∀ k v : Bytes, chNL ∉ k → chNL ∉ v → chNL ∉ kvLine k v := by
      intro k v hk hv hm
      unfold kvLine at hm
      rcases List.mem_append.1 hm with hm | hm
      · exact hk hm
      · rcases List.mem_cons.1 hm with hm | hm
        · exact absurd hm (by decide)
        · exact hv hm
    simp only [SnapManifest.lines, List.mem_cons, List.not_mem_nil, or_false] at hl
    rcases hl with rfl | rfl | rfl | rfl | rfl | rfl | rfl | rfl | rfl
    · exact key _ _ (by decide) (decStr_lineSafe _).1
    · exact key _ _ (by decide) h.id.1
    · exact key _ _ (by decide) h.reason.1
    · exact key _ _ (by decide) (decStr_lineSafe _).1
    · exact key _ _ (by decide) (decStr_lineSafe _).1
    · exact key _ _ (by decide) h.graph.1
    · exact key _ _ (by decide) h.data.1
    · exact key _ _ (by decide) h.quant.1
    · exact key _ _ (by decide) h.rocks.1
  have n1 : parseUint32Decimal (decStr m.formatVersion) = some m.formatVersion := by
    obtain ⟨h1, h2, h3⟩ := decStr_isDecimal m.formatVersion
    exact (C37_parse_uint32_decimal_exact _ _).2 ⟨h1, h2, h3, h.version⟩
  have n2 := (C37_print_parse m.appliedThrough h.applied).2
  have n3 := (C37_print_parse m.createdMs h.created).2
  unfold SnapManifest.deserialize SnapManifest.serialize
  rw [getlines_lines m.lines hnl]
  have hp : SnapManifest.parseLines {} m.lines = some m := by
    have sp : ∀ k v : Bytes, chEq ∉ k → v.getLast? ≠ some chCR → splitEq (dropCR (kvLine k v)) = some (k, v) :=
      fun k v hk hv => parseLine_kv k v hk hv
    unfold SnapManifest.lines
    simp only [SnapManifest.parseLines, SnapManifest.parseLine]
    rw [sp (str "format_version") _ (by decide) (decStr_lineSafe _).2]
    simp only [if_true, n1]
    rw [sp (str "snapshot_id") _ (by decide) h.id.2]
    simp only
    rw [if_neg (by decide), if_pos trivial]
    rw [sp (str "reason") _ (by decide) h.reason.2]
    simp only
    rw [if_neg (by decide), if_neg (by decide), if_pos trivial]
    rw [sp (str "applied_through_op_id") _ (by decide) (decStr_lineSafe _).2]
    simp only
    rw [if_neg (by decide), if_neg (by decide), if_neg (by decide), if_pos trivial]
    simp only [n2]
    rw [sp (str "created_unix_ms") _ (by decide) (decStr_lineSafe _).2]
    simp only
    rw [if_neg (by decide), if_neg (by decide), if_neg (by decide), if_neg (by decide), if_pos trivial]
    simp only [n3]
    rw [sp (str "graph_file") _ (by decide) h.graph.2]
    simp only
    rw [if_neg (by decide), if_neg (by decide), if_neg (by decide), if_neg (by decide), if_neg (by decide),
      if_pos trivial]
    rw [sp (str "data_file") _ (by decide) h.data.2]
    simp only
    rw [if_neg (by decide), if_neg (by decide), if_neg (by decide), if_neg (by decide), if_neg (by decide),
      if_neg (by decide), if_pos trivial]
    rw [sp (str "quant_file") _ (by decide) h.quant.2]
    simp only
    rw [if_neg (by decide), if_neg (by decide), if_neg (by decide), if_neg (by decide), if_neg (by decide),
      if_neg (by decide), if_neg (by decide), if_pos trivial]
    rw [sp (str "rocksdb_dir") _ (by decide) h.rocks.2]
    simp only
    rw [if_neg (by decide), if_neg (by decide), if_neg (by decide), if_neg (by decide), if_neg (by decide),
      if_neg (by decide), if_neg (by decide), if_neg (by decide), if_pos trivial]
  rw [hp]
  simp only
  rw [if_neg h.id_ne]

/-- The manifests the index writes are valid (any op id and clock below 2^64): id "snapshot-<ms>" and fixed
file names. /repo/python/include/index.hpp:255-297. -/
def indexManifest (ms applied : Nat) (reason : Bytes) : SnapManifest :=
  { snapshotId := str "snapshot-" ++ decStr ms, reason := reason, appliedThrough := applied, createdMs := ms,
    graphFile := str "graph.snapshot", dataFile := str "data.snapshot", quantFile := [],
    rocksdbDir := str "rocksdb" }

theorem C14_index_manifest_valid (ms applied : Nat) (reason : Bytes) (h1 : ms < 2 ^ 64) (h2 : applied < 2 ^ 64)
    (h3 : reason ∈ [str "manual_save", str "post_recovery", str "post_load", str "post_fit"]) :
    (indexManifest ms applied reason).Valid := by
  have hr : LineSafe reason := by
    simp only [List.mem_cons, List.not_mem_nil, or_false] at h3
    rcases h3 with rfl | rfl | rfl | rfl <;> decide
  refine ⟨by simp [indexManifest], h2, h1, by simp [indexManifest, str], ?_, hr, by simp only [indexManifest]; decide,
    by simp only [indexManifest]; decide, by simp only [indexManifest]; decide, by simp only [indexManifest]; decide⟩
  have hd := decStr_lineSafe ms
  refine ⟨?_, ?_⟩
  · intro hm
    rcases List.mem_append.1 hm with hm | hm
    · exact absurd hm (by decide)
    · exact hd.1 hm
  · simp only [indexManifest]
    intro hl
    rw [List.getLast?_append] at hl
    cases hg : (decStr ms).getLast? with
    | none => rw [List.getLast?_eq_none_iff] at hg; exact decStr_ne_nil ms hg
    | some x =>
      rw [hg] at hl
      simp only [Option.some_or, Option.some.injEq] at hl
      rw [hl] at hg
      exact hd.2 hg

example : (indexManifest 1700000000000 41 (str "post_recovery")).Valid :=
  C14_index_manifest_valid _ _ _ (by decide) (by decide) (by decide)

/-- Damage in a numeric field is refused, wherever the line stands: a text with a line
`applied_through_op_id=v` (also `created_unix_ms`, `format_version`) where `v` is not a plain decimal in
range is not accepted. -/
theorem C14_bad_number_refused (raw line key v : Bytes) (hl : line ∈ getlines [] raw)
    (hs : splitEq (dropCR line) = some (key, v))
    (hbad : ((key = str "applied_through_op_id" ∨ key = str "created_unix_ms") ∧
        ∀ n, ¬ (IsDecimal v n ∧ n < 2 ^ 64)) ∨
      (key = str "format_version" ∧ ∀ n, ¬ (IsDecimal v n ∧ n < 2 ^ 32))) :
    SnapManifest.deserialize raw = none := by
  have hline : ∀ m : SnapManifest, m.parseLine line = none := by
    intro m
    unfold SnapManifest.parseLine
    rw [hs]
    simp only
    rcases hbad with ⟨hk, hn⟩ | ⟨hk, hn⟩
    · have hp : parseUint64Decimal v = none := by
        cases hp : parseUint64Decimal v with
        | none => rfl
        | some n =>
          obtain ⟨h1, h2, h3, h4⟩ := (C37_parse_uint64_decimal_exact v n).1 hp
          exact absurd ⟨⟨h1, h2, h3⟩, h4⟩ (hn n)
      rcases hk with rfl | rfl
      · rw [if_neg (by decide), if_neg (by decide), if_neg (by decide), if_pos rfl, hp]
      · rw [if_neg (by decide), if_neg (by decide), if_neg (by decide), if_neg (by decide), if_pos rfl, hp]
    · have hp : parseUint32Decimal v = none := by
        cases hp : parseUint32Decimal v with
        | none => rfl
        | some n =>
          obtain ⟨h1, h2, h3, h4⟩ := (C37_parse_uint32_decimal_exact v n).1 hp
          exact absurd ⟨⟨h1, h2, h3⟩, h4⟩ (hn n)
      subst hk
      rw [if_pos rfl, hp]
  have hlines : ∀ (ls : List Bytes) (m : SnapManifest), line ∈ ls → m.parseLines ls = none := by
    intro ls
    induction ls with
    | nil => intro m hm; simp at hm
    | cons l ls ih =>
      intro m hm
      simp only [SnapManifest.parseLines]
      rcases List.mem_cons.1 hm with rfl | hm
      · rw [hline m]
      · cases hp : m.parseLine l with
        | none => rfl
        | some m' => exact ih m' hm
  unfold SnapManifest.deserialize
  rw [hlines _ _ hl]

-- a text with a negative op id
example : kvLine (str "applied_through_op_id") (str "-1")
    ∈ getlines [] (str "snapshot_id=s\napplied_through_op_id=-1\n") := by decide

/-- A manifest without snapshot id is refused. -/
theorem C14_empty_id_refused (m : SnapManifest) (raw : Bytes)
    (h : SnapManifest.deserialize raw = some m) : m.snapshotId ≠ [] := by
  unfold SnapManifest.deserialize at h
  split at h
  · simp at h
  · split at h
    · simp at h
    · injection h with h; subst h; assumption

example : SnapManifest.deserialize (str "snapshot_id=s\n") = some { snapshotId := str "s" } := by decide

/-- Missing lines are not noticed: a text cut after the snapshot id is accepted with `applied_through_op_id = 0`
(the file is replaced atomically, so a cut text does not arise from a crash of the writer). -/
theorem C14_missing_lines_accepted :
    SnapManifest.deserialize (((indexManifest 7 41 (str "post_fit")).serialize).take 40)
      = some { snapshotId := str "snapshot-7" } := by decide

end Alaya
