import Verif.Model.Dft

/-!
# Derivation in Fourier domain

Model of the programs of doc/dft.dox: LitlDemo/tests/src/LitlDemoDft_test.cpp:17-57 (with plans) and
LitlDemo/tests/src/LitlDemoDft_test.cpp:59-89 (with functions).
-/

namespace Litl

/-- The loop of LitlDemo/tests/src/LitlDemoDft_test.cpp:42-46 and LitlDemo/tests/src/LitlDemoDft_test.cpp:76-80:
`e *= std::complex<double>(0, k); ++k;` for each element, where `k` starts at 0. -/
noncomputable def deriveLoop : List ℂ → Int → List ℂ
  | [], _ => []
  | e :: v, k => e * (⟨0, k⟩ : ℂ) :: deriveLoop v (k + 1)

/-- The loop over `direct.out()` (LitlDemo/tests/src/LitlDemoDft_test.cpp:42-46): it is undefined behaviour if there are less elements
in memory than in the raster. -/
noncomputable def DftPlan.derive (d : DftPlan) (m : Memory) : Res Memory :=
  match m d.output.address with
  | some (.complex v) =>
    if (v.length : Int) < shapeSize d.output.shape then .error .ub
    else .ok (m.set d.output.address (.complex (deriveLoop (v.take (shapeSize d.output.shape).toNat) 0 ++
      v.drop (shapeSize d.output.shape).toNat)))
  | _ => .error .ub

/-- The loop over the raster returned by `realDft()` (LitlDemo/tests/src/LitlDemoDft_test.cpp:76-80). -/
noncomputable def Values.derive : Values → Res Values
  | .complex v => .ok (.complex (deriveLoop v 0))
  | .real _ => .error .ub

end Litl
