import Verif.Model.Bounded
import Verif.Model.Components

/-!
# Model of `inf` and `nan` in scattering matrices and in gradients of bounded parameters

`Part.S` calculates with real numbers. Here the same calculations are done with what torch gives for roots of negative numbers and
divisions by zero.
-/

namespace PT

/-- `x ** 0.5` or `torch.sqrt(x)` for an entry of a tensor; `none` is `nan`, e.g. `/repo/photontorch/components/mirrors.py:51-52`. -/
noncomputable def tensorRoot (x : ℝ) : Option ℝ := open Classical in if x < 0 then none else some √x

/-- `x / y` for entries of tensors; `none` is infinite or `nan`, e.g. `/repo/photontorch/components/waveguides.py:79-80`. -/
noncomputable def tensorDiv (x y : ℝ) : Option ℝ := open Classical in if y = 0 then none else some (x / y)

/-- The phase of propagation, `/repo/photontorch/components/waveguides.py:79-80`, `/repo/photontorch/components/mzis.py:89-90`; what is
infinite becomes `nan` at the latest by the remainder. -/
noncomputable def propagationNumber (length neff wl0 ng wl : ℝ) : Option ℝ :=
  (tensorDiv ((wl - wl0) * (ng - neff)) wl0).bind fun d =>
    (tensorDiv (2 * Real.pi * (neff - d) * length) wl).map modTwoPi

/-- The gaussian of a grating coupler, `/repo/photontorch/components/gratingcouplers.py:61-67`: `exp(-inf)` is zero, `0 / 0` is `nan`. -/
noncomputable def gaussianNumber (bandwidth wl0 wl : ℝ) : Option ℝ :=
  open Classical in
  let sigma := 1 / (2 * √(2 * Real.log 2)) * bandwidth
  if 2 * sigma ^ 2 = 0 then if -((wl0 - wl) ^ 2) = 0 then none else some 0
  else some (Real.exp (-((wl0 - wl) ^ 2) / (2 * sigma ^ 2)))

/-- `set_S` of a component at a wavelength, `none` if some entry is not a number: `/repo/photontorch/components/mirrors.py:50-60`,
`waveguides.py:75-91`, `directionalcouplers.py:61-71,154-173,236-253`, `mzis.py:85-113`, `gratingcouplers.py:60-72`; the others do not
divide or take roots. -/
noncomputable def Part.number (wl : ℝ) : (p : Part) → Option (SMat p.n)
  | .mirror R =>
    (tensorRoot R).bind fun r => (tensorRoot (1 - R)).map fun t =>
      (((SMat.zero.setRe 0 0 r).setRe 1 1 r).setIm 0 1 t).setIm 1 0 t
  | .waveguide length loss neff wl0 ng phase =>
    (propagationNumber length neff wl0 ng wl).map fun φ =>
      let ph := φ + modTwoPi phase
      let l := lossFactor loss length
      (SMat.zero.setRe2 0 1 (l * Real.cos ph)).setIm2 0 1 (l * Real.sin ph)
  | .coupler k =>
    (tensorRoot (1 - k)).bind fun t => (tensorRoot k).map fun k =>
      (((SMat.zero.setRe2 0 1 t).setRe2 2 3 t).setIm2 0 2 k).setIm2 1 3 k
  | .longCoupler length k loss _ _ _ phase =>
    (tensorRoot k).bind fun kappa => (tensorRoot (1 - k)).map fun tau =>
      let c := Real.cos (modTwoPi phase)
      let s := Real.sin (modTwoPi phase)
      let l := lossFactor loss length
      ((((((((SMat.zero.setRe2 0 1 (tau * l * c)).setIm2 0 1 (tau * l * s)).setRe2 0 2 (-kappa * l * s)).setIm2 0 2
        (kappa * l * c)).setRe2 1 3 (-kappa * l * s)).setIm2 1 3 (kappa * l * c)).setRe2 2 3
        (tau * l * c)).setIm2 2 3 (tau * l * s))
  | .realisticCoupler length k0 n0 d1k d1n d2k d2n wl0 =>
    let dwl := wl - wl0
    let dn := n0 + d1n * dwl + 0.5 * d2n * dwl ^ 2
    let kappa0 := k0 + d1k * dwl + 0.5 * d2k * dwl ^ 2
    (tensorDiv (Real.pi * dn) wl).map fun kappa1 =>
      let tau := Real.cos (kappa0 + kappa1 * length)
      let kappa := -Real.sin (kappa0 + kappa1 * length)
      (((SMat.zero.setRe2 0 1 tau).setRe2 2 3 tau).setIm2 0 2 kappa).setIm2 1 3 kappa
  | .mzi phi theta neff ng wl0 length _ =>
    (propagationNumber length neff wl0 ng wl).map fun phi0 =>
      let phi1 := phi0 + phi
      let c := Real.cos theta
      let s := Real.sin theta
      ((((((((SMat.zero.setRe2 0 1 (Real.cos phi1 * c)).setIm2 0 1 (Real.sin phi1 * c)).setRe2 0 2
        (Real.cos phi1 * s)).setIm2 0 2 (Real.sin phi1 * s)).setRe2 1 3 (-Real.cos phi0 * s)).setIm2 1 3
        (-Real.sin phi0 * s)).setRe2 2 3 (Real.cos phi0 * c)).setIm2 2 3 (Real.sin phi0 * c))
  | .grating R Rin Tmax bandwidth wl0 =>
    (gaussianNumber bandwidth wl0 wl).bind fun e => (tensorRoot (Tmax * e)).map fun l =>
      ((SMat.zero.setRe2 0 1 l).setIm 0 0 Rin).setIm 1 1 R
  | .term => some SMat.zero
  | .source => some SMat.zero
  | .detector => some SMat.zero
  | .connection => some connectionS
  | .linearSoa a => some (linearSoaS a)
  | .mmi _ _ re im => some (mmiS re im)

/-- Product of two floats; `none` is `nan`. The gradients that are multiplied here are those of autograd for
`/repo/photontorch/components/directionalcouplers.py:62-63`. -/
noncomputable def floatMul (x y : Option EReal) : Option EReal :=
  open Classical in
  x.bind fun x => y.bind fun y =>
    if (x = 0 ∧ (y = ⊤ ∨ y = ⊥)) ∨ (y = 0 ∧ (x = ⊤ ∨ x = ⊥)) then none else some (x * y)

/-- Sum of two floats; `none` is `nan`; as accumulated by autograd for `/repo/photontorch/components/directionalcouplers.py:62-63`. -/
noncomputable def floatAdd (x y : Option EReal) : Option EReal :=
  open Classical in
  x.bind fun x => y.bind fun y => if (x = ⊤ ∧ y = ⊥) ∨ (x = ⊥ ∧ y = ⊤) then none else some (x + y)

/-- What autograd (torch) passes on for `x ** 0.5`, given the gradient `g` of the result: `g * (0.5 * x ** (-0.5))`, with `0 ** (-0.5)`
infinite; for `/repo/photontorch/components/directionalcouplers.py:62-63`, `mirrors.py:51-52`. -/
noncomputable def rootBackward (x : ℝ) (g : ℝ) : Option EReal :=
  open Classical in
  floatMul (some (g : EReal))
    (if x < 0 then none else if x = 0 then some ⊤ else some ((0.5 * (√x)⁻¹ : ℝ) : EReal))

/-- What autograd passes on to the weight of a bounded parameter for one use of its value, given the gradient `g` of the value: through
`(b - a) * scaled_data + a` and through `torch.sigmoid`, whose backward pass is `g * (1 - y) * y`;
`/repo/photontorch/nn/nn.py:98-102,148-152`. -/
noncomputable def boundedBackward (w : EReal) (a b : ℝ) (g : Option EReal) : Option EReal :=
  floatMul (floatMul (floatMul g (some ((b - a : ℝ) : EReal))) (some ((1 - tsigmoid w : ℝ) : EReal))) (some ((tsigmoid w : ℝ) : EReal))

/-- The gradient of the weight of the coupling of a coupler (or of the reflectivity of a mirror), given the gradients `gk` of `coupling ** 0.5`
and `gt` of `(1 - coupling) ** 0.5`; the property is read twice, `/repo/photontorch/components/directionalcouplers.py:61-63,154-156`,
`/repo/photontorch/components/mirrors.py:50-52`. -/
noncomputable def ratioBackward (w : EReal) (a b gk gt : ℝ) : Option EReal :=
  floatAdd (boundedBackward w a b ((rootBackward (1 - boundedValue w a b) gt).map Neg.neg))
    (boundedBackward w a b (rootBackward (boundedValue w a b) gk))

/-- A step of gradient descent for a weight, `torch.optim.SGD`: `w - lr * g`, on the parameter that `/repo/photontorch/nn/nn.py:143-145`
registers; `none` is `nan`. -/
noncomputable def descend (lr : ℝ) (w g : Option EReal) : Option EReal :=
  floatAdd w (floatMul (some ((-lr : ℝ) : EReal)) g)

/-- The value read from a weight that may be `nan`, `/repo/photontorch/nn/nn.py:98-102,148-152`. -/
noncomputable def valueNumber (w : Option EReal) (a b : ℝ) : Option ℝ := w.map fun w => boundedValue w a b

end PT
