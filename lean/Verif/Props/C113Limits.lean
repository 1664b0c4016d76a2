import Verif.Props.C113

/-! C113, limits. -/

namespace Alaya.Relayout

/-- For a row with a repetition the check of the length accepts a visit row of another graph, and the row gets a neighbour it never had. -/
theorem C113_other_refuted : relayout [(9, 1)] [1, 1, 2] = some [9, 1, 2] := by decide +kernel

/-- A row with a repetition is refused although its visit row is right. -/
theorem C113_repeat_refuted : relayout [(2, 1)] [1, 1, 2] = none := by decide +kernel

end Alaya.Relayout
