import Verif.Props.C97

/-! C97: what does not hold. -/
namespace Alaya.ThreadReader

/-- "A thread may deregister once all its reads have been reported": the worker that reported the last one still has to wake up waiting
callers through the context.  So ends the LASER builder (qg_builder.hpp:343, 421): all reads done, then `deregister_all_threads`. -/
theorem C97_deregister_refuted :
    ¬ ∀ (es : List Ev) (s : State) (t : List Obs) (c : Nat), run State.init es = some (some (s, t)) →
      (handedTo c t).length = (submittedTo c t).length → ¬ Waiting s c → ∀ fs, (∀ e ∈ fs, Internal e) →
      run s ([.mark c, .free c] ++ fs) ≠ some none := by
  intro h
  have hr : run State.init [.open 1, .register 7, .submit 0 [exRead 0], .take 0 0, .pread 0 512, .active 0, .push 0, .poll 0 4 [0]] =
      some (some (⟨.opened, true, false, [], [.wake 0], [⟨7, [], true, true⟩], []⟩,
        [.submitted 0 (exRead 0), .performed 0 (exRead 0) 512, .handed 0 ⟨0, 512⟩])) := by decide +kernel
  refine h _ _ _ 0 hr (by decide) ?_ [.wake 0] (by simp [Internal]) (by decide +kernel)
  rintro ⟨k, v, hk, _⟩
  simp at hk

/-- "When `read` returns, its reads have been performed": with reads outstanding on the context, it may have waited for those. -/
theorem C97_read_refuted :
    ¬ ∀ (es fs : List Ev) (s s' : State) (t t' : List Obs) (c k : Nat) (rs : List Read) (v : Call),
      run State.init es = some (some (s, t)) → Live s c → k = s.calls.length →
      run s ([.submit c rs, .get c rs.length] ++ fs) = some (some (s', t')) → s'.calls[k]? = some v → v.over = true →
      readThrows rs.length v.out = false → ∀ r ∈ rs, r ∈ (performedFor c t').map Prod.fst := by
  intro h
  have h1 : run State.init [.open 1, .register 7, .submit 0 [exRead 0]] =
      some (some (⟨.opened, true, false, [⟨0, exRead 0⟩], [.idle], [⟨7, [], true, true⟩], []⟩, [.submitted 0 (exRead 0)])) := by decide +kernel
  have := h _ [.take 0 0, .pread 0 512, .active 0, .push 0, .wake 0, .collect 0 0, .ret 0] _
    ⟨.opened, true, false, [⟨0, exRead 1⟩], [.idle], [⟨7, [], true, true⟩], [⟨0, 1, [⟨0, 512⟩], true⟩]⟩ _
    [.submitted 0 (exRead 1), .performed 0 (exRead 0) 512, .handed 0 ⟨0, 512⟩] 0 0 [exRead 1] ⟨0, 1, [⟨0, 512⟩], true⟩ h1
    ⟨⟨7, [], true, true⟩, rfl, rfl, rfl⟩ rfl (by decide +kernel) rfl rfl (by decide) (exRead 1) (by simp)
  revert this
  decide

/-- "`read` throws if a read fails or is short": it only counts the events. -/
theorem C97_read_error_refuted :
    ¬ ∀ (es : List Ev) (s : State) (t : List Obs) (k : Nat) (v : Call), run State.init es = some (some (s, t)) → s.calls[k]? = some v →
      v.over = true → readThrows v.n v.out = false → ∀ e ∈ v.out, 0 < e.result := by
  intro h
  have := h [.open 1, .register 7, .submit 0 [exRead 0], .get 0 1, .take 0 0, .pread 0 (-5), .active 0, .push 0, .wake 0, .collect 0 0, .ret 0]
    ⟨.opened, true, false, [], [.idle], [⟨7, [], true, true⟩], [⟨0, 1, [⟨0, -5⟩], true⟩]⟩
    [.submitted 0 (exRead 0), .performed 0 (exRead 0) (-5), .handed 0 ⟨0, -5⟩] 0 ⟨0, 1, [⟨0, -5⟩], true⟩ (by decide +kernel) rfl rfl (by decide)
    ⟨0, -5⟩ (by simp)
  revert this
  decide

/-- "Reads submitted before `close` are performed": a worker that found the queue empty before the submission sees `stop_` and ends. -/
theorem C97_close_performs_refuted :
    ¬ ∀ (es fs : List Ev) (s s' : State) (t t' : List Obs) (c : Nat), run State.init es = some (some (s, t)) → s.phase = .opened →
      (∀ e ∈ fs, Internal e) → run s ([.stop] ++ fs ++ [.finish]) = some (some (s', t')) →
      ∀ r ∈ submittedTo c t, r ∈ (performedFor c (t ++ t')).map Prod.fst := by
  intro h
  have h1 : run State.init [.open 1, .register 7, .miss 0, .submit 0 [exRead 0]] =
      some (some (⟨.opened, true, false, [⟨0, exRead 0⟩], [.miss], [⟨7, [], true, true⟩], []⟩, [.submitted 0 (exRead 0)])) := by decide +kernel
  have := h _ [.look 0] _ ⟨.closed, false, true, [], [], [⟨7, [], false, false⟩], []⟩ _ [] 0 h1 rfl (by simp [Internal]) (by decide +kernel)
    (exRead 0) (by decide)
  revert this
  decide

end Alaya.ThreadReader
