import Verif.Model.LaserFit

/-! What a finished `fit` means: every file comes from the vectors, parameters and seed of the call. -/
namespace Alaya.Spec
open Alaya Alaya.LaserFit

structure Good (E : Env) (A : Args) (d : Dir) : Prop where
  hRaw : A.input.isFile = false → d .raw = some A.raw
  hPca : A.md < A.input.dim → ∃ p, E.pcaFit A.raw A.seed = some p ∧ d .pca = some p ∧
    d .base = some (LaserFiles.fbin A.input.n A.input.dim (A.input.rows.map (E.pcaRow p)).flatten)
  hNoPca : ¬ A.md < A.input.dim → d .pca = none ∧ d .base = some A.raw
  hMed : A.disable = false → ∃ b i v, d .base = some b ∧ E.medoid b A.ep A.seed = some (i, v) ∧ d .medIdx = some i ∧ d .med = some v
  hNoMed : A.disable = true → d .medIdx = none ∧ d .med = none
  hIndex : ∃ r r' b v ix rot ids nodes, d .base = some b ∧ d .vam = some v ∧ E.vamana A.raw A.R A.L A.alpha A.seed r = some v ∧
    E.laser A.input.n A.md A.input.dim A.R A.seed b v r' = some (some (ix, rot, ids, nodes)) ∧ d (.index A.R A.md) = some ix ∧
    d (.rot A.R A.md) = some rot ∧ d (.cids A.R A.md) = some ids ∧ d (.cnodes A.R A.md) = some nodes

end Alaya.Spec
