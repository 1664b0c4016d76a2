import Verif.Props.C10

/-! C11: replay of arbitrary file contents. -/
namespace Alaya.Wal

/-- Whatever bytes the log file contains, the scanned frames are the maximal sequence of complete valid frames
at the start of the file. -/
theorem C11_scan_maximal (bs : Bytes) :
    ∃ chunks : List Bytes, ∃ tail : Bytes, bs = chunks.flatten ++ tail ∧ chunks.length = (scan bs).length ∧
      (∀ (i : Nat) c f, chunks[i]? = some c → (scan bs)[i]? = some f → IsFrame c f) ∧
      ∀ b f rest, IsFrame b f → tail ≠ b ++ rest := scan_decompose bs.length bs (Nat.le_refl _)

/-- Whatever bytes the log file contains: the returned records are in ascending op-id order, newer than the
snapshot, and each is the content of a prepare frame of the file that is followed by a commit frame with the same
op id and mutation, with no other frame of that operation in between; `max_seen_op_id` bounds the op ids of all
complete frames and `applied_through`. -/
theorem C11_replay_sound (bs : Bytes) (applied : Nat) (out : List Record) (maxSeen : Nat)
    (h : Replayable (some bs) applied out maxSeen) :
    out.Pairwise (fun a b => a.opId ≤ b.opId) ∧
    (∀ r ∈ out, r.opId > applied ∧ ∃ pre mid post p c,
      scan bs = pre ++ [p] ++ mid ++ [c] ++ post ∧ p = ⟨.prepare, r⟩ ∧ c.type = .commit ∧
        c.record.opId = r.opId ∧ c.record.kind = r.kind ∧ ∀ f ∈ mid, f.record.opId ≠ r.opId) ∧
    applied ≤ maxSeen ∧ ∀ f ∈ scan bs, f.record.opId ≤ maxSeen := by
  obtain ⟨⟨h1, h2⟩, h3⟩ := h
  refine ⟨h2, ?_, ?_, ?_⟩
  · intro r hr
    have hr' := h1.subset hr
    rw [(replayFrames_spec applied _).1, List.mem_filter] at hr'
    refine ⟨by simpa using hr'.2, ?_⟩
    have key : ∀ (fs before : List Frame), r ∈ committedFrom before fs →
        ∃ pre mid post p c, before ++ fs = pre ++ [p] ++ mid ++ [c] ++ post ∧ p = ⟨.prepare, r⟩ ∧
          c.type = .commit ∧ c.record.opId = r.opId ∧ c.record.kind = r.kind ∧
          ∀ f ∈ mid, f.record.opId ≠ r.opId := by
      intro fs
      induction fs with
      | nil => intro before hm; simp [committedFrom] at hm
      | cons f fs ih =>
        intro before hm
        simp only [committedFrom, List.mem_append] at hm
        rcases hm with hm | hm
        · have hc : commits before f = some r := by simpa using hm
          unfold commits at hc
          by_cases ht : f.type = .commit
          · rw [if_pos ht] at hc
            cases hl : lastWith f.record.opId before with
            | none => rw [hl] at hc; simp at hc
            | some p =>
              rw [hl] at hc
              simp only at hc
              by_cases hk : p.type = .prepare ∧ p.record.kind = f.record.kind
              · rw [if_pos hk] at hc
                injection hc with hc
                subst hc
                have hop := (lastWith_op hl).2
                -- split `before` at the last frame of this operation
                have split : ∀ (l : List Frame), lastWith f.record.opId l = some p →
                    ∃ pre mid, l = pre ++ [p] ++ mid ∧ ∀ g ∈ mid, g.record.opId ≠ f.record.opId := by
                  intro l
                  induction l using snocInduction with
                  | nil => intro hx; simp [lastWith] at hx
                  | snoc l g ihl =>
                    intro hx
                    rw [lastWith_snoc] at hx
                    by_cases hg : g.record.opId = f.record.opId
                    · rw [if_pos hg] at hx
                      injection hx with hx
                      subst hx
                      exact ⟨l, [], by simp, by simp⟩
                    · rw [if_neg hg] at hx
                      obtain ⟨pre, mid, e, hm⟩ := ihl hx
                      refine ⟨pre, mid ++ [g], by rw [e]; simp, ?_⟩
                      intro g' hg'
                      rcases List.mem_append.1 hg' with hg' | hg'
                      · exact hm g' hg'
                      · simp only [List.mem_singleton] at hg'
                        rw [hg']; exact hg
                obtain ⟨pre, mid, e, hmid⟩ := split before hl
                refine ⟨pre, mid, fs, p, f, by rw [e]; simp, ?_, ht, hop.symm, hk.2.symm, ?_⟩
                · rw [← hk.1]
                · intro g hg; rw [hop]; exact hmid g hg
              · rw [if_neg hk] at hc; simp at hc
          · rw [if_neg ht] at hc; simp at hc
        · obtain ⟨pre, mid, post, p, c, e, rest⟩ := ih (before ++ [f]) hm
          exact ⟨pre, mid, post, p, c, by rw [← e]; simp, rest⟩
    have := key (scan bs) [] hr'.1
    simpa using this
  · rw [h3, (replayFrames_spec applied _).2]
    exact (foldl_max_spec _ _).1
  · intro f hf
    rw [h3, (replayFrames_spec applied _).2]
    exact (foldl_max_spec _ _).2.1 _ (List.mem_map.2 ⟨f, hf, rfl⟩)

/-- And nothing committed is missed: with the frames of the file given, every prepare/commit pair of that kind
newer than the snapshot is returned. -/
theorem C11_replay_complete (bs : Bytes) (applied : Nat) (out : List Record) (maxSeen : Nat)
    (h : Replayable (some bs) applied out maxSeen) (pre mid post : List Frame) (r : Record) (c : Frame)
    (hs : scan bs = pre ++ [⟨.prepare, r⟩] ++ mid ++ [c] ++ post) (hc : c.type = .commit)
    (hop : c.record.opId = r.opId) (hk : c.record.kind = r.kind) (hm : ∀ f ∈ mid, f.record.opId ≠ r.opId)
    (ha : r.opId > applied) : r ∈ out := by
  apply h.1.1.symm.subset
  rw [(replayFrames_spec applied _).1, List.mem_filter]
  refine ⟨?_, by simpa using ha⟩
  unfold committed
  rw [hs, List.append_assoc, committedFrom_append]
  apply List.mem_append_right
  simp only [List.nil_append, List.singleton_append, committedFrom]
  apply List.mem_append_left
  have hl : ∀ (l : List Frame), (∀ f ∈ l, f.record.opId ≠ r.opId) →
      lastWith r.opId (pre ++ [⟨.prepare, r⟩] ++ l) = some ⟨.prepare, r⟩ := by
    intro l hx
    induction l using snocInduction with
    | nil => rw [List.append_nil, lastWith_snoc, if_pos rfl]
    | snoc l g ihl =>
      rw [← List.append_assoc, lastWith_snoc, if_neg (hx g (by simp)), ihl (fun f hf => hx f (by simp [hf]))]
  unfold commits
  rw [if_pos hc, hop, hl mid hm]
  simp [hk]

/-- A missing log file gives no records. -/
theorem C11_missing_file (applied : Nat) (out : List Record) (maxSeen : Nat) :
    Replayable none applied out maxSeen ↔ out = [] ∧ maxSeen = applied := Iff.rfl

set_option maxRecDepth 100000 in
-- replay of a file with garbage after the frames
example : ∃ out mx, Replayable (some (((sampleOps.flatMap LoggedOp.frames).map frameBytes).flatten ++ [1, 2, 3])) 4 out mx :=
  ⟨[⟨6, .removeByItemId, str "z"⟩], 6, by unfold Replayable SortedResult; decide⟩

end Alaya.Wal
