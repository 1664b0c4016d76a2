import Verif.Lemmas.Filter
import Verif.Props.C04

/-! C05: evaluating a filter on the stored bytes (decoding only the mentioned fields) equals evaluating it
on the fully decoded metadata. -/
namespace Alaya

/-- For every filter tree and every stored record (possibly followed by other bytes). -/
theorem C05_raw_eval_stored (f : Filter) (r : ScalarData) (rest : Bytes) (h : Storable r) :
    f.evalRaw (r.serialize ++ rest) = .ok (f.eval r.metadata) := by
  obtain ⟨m, hm, _, hk⟩ := C04_stored_selected r rest h (f.collect [])
  unfold Filter.evalRaw
  rw [hm]
  simp only [PR.bind, PR.ok.injEq]
  exact Filter.eval_congr f [] _ _ (fun k hk' => by rw [hk k, if_pos hk'])

/-- For every filter tree and every accepted byte string without duplicate keys. -/
theorem C05_raw_eval_accepted_partial (f : Filter) (data : Bytes) (r : ScalarData)
    (h : ScalarData.deserialize data = .ok r)
    (hc : announcedCount data = some r.metadata.length) :
    f.evalRaw data = .ok (f.eval r.metadata) := by
  obtain ⟨m, hm, _, hk⟩ := C04_selected_agrees_partial data r (f.collect []) h hc
  unfold Filter.evalRaw
  rw [hm]
  simp only [PR.bind, PR.ok.injEq]
  exact Filter.eval_congr f [] _ _ (fun k hk' => by rw [hk k, if_pos hk'])

/-- A sample filter: a = 5 AND (b_c IN {x} OR NOT zz > 1). -/
def sampleFilter : Filter :=
  .mk .and [⟨str "a", .eq, .int 5, []⟩]
    [.mk .or [⟨str "b_c", .inSet, .int 0, [.string (str "x")]⟩]
      [.mk .not [⟨str "zz", .gt, .int 1, []⟩] []]]

example : sampleFilter.evalRaw sampleRecord.serialize = .ok true ∧
    sampleFilter.eval sampleRecord.metadata = true ∧
    sampleFilter.collect [] = [str "a", str "b_c", str "zz"] := by decide

/-- Collected fields: every field of every condition anywhere in the tree, and nothing else. -/
inductive Mentions : Filter → Bytes → Prop
  | cond {op conds subs c} (h : c ∈ conds) : Mentions (.mk op conds subs) c.field
  | sub {op conds subs f k} (h : f ∈ subs) (hk : Mentions f k) : Mentions (.mk op conds subs) k

mutual
theorem collect_iff (f : Filter) (acc : List Bytes) (k : Bytes) :
    k ∈ f.collect acc ↔ k ∈ acc ∨ Mentions f k := by
  match f with
  | .mk op conds subs =>
    simp only [Filter.collect]
    rw [collectSubs_iff, mem_foldl_conds]
    constructor
    · rintro ((h | ⟨c, hc, rfl⟩) | ⟨f, hf, hk⟩)
      · exact Or.inl h
      · exact Or.inr (.cond hc)
      · exact Or.inr (.sub hf hk)
    · rintro (h | h)
      · exact Or.inl (Or.inl h)
      · cases h with
        | cond hc => exact Or.inl (Or.inr ⟨_, hc, rfl⟩)
        | sub hf hk => exact Or.inr ⟨_, hf, hk⟩
theorem collectSubs_iff (fs : List Filter) (acc : List Bytes) (k : Bytes) :
    k ∈ Filter.collectSubs fs acc ↔ k ∈ acc ∨ ∃ f ∈ fs, Mentions f k := by
  match fs with
  | [] => simp [Filter.collectSubs]
  | f :: fs =>
    simp only [Filter.collectSubs]
    rw [collectSubs_iff fs, collect_iff f]
    simp only [List.mem_cons, exists_eq_or_imp, or_assoc]
end

theorem C05_collected_fields_exact (f : Filter) (k : Bytes) :
    k ∈ f.collect [] ↔ Mentions f k := by
  rw [collect_iff]; simp

/-- With duplicate keys in the bytes (never produced by `serialize`) the shortcut can disagree. -/
theorem C05_duplicate_keys_refuted :
    ¬ ∀ (f : Filter) (data : Bytes) (r : ScalarData), ScalarData.deserialize data = .ok r →
      f.evalRaw data = .ok (f.eval r.metadata) := by
  intro h
  have := h (.mk .and [⟨str "a", .eq, .int 2, []⟩] []) dupBytes ⟨[], [], [(str "a", .int 2)]⟩ (by decide)
  revert this
  decide

end Alaya
