import Verif.Model.Attr
import Verif.Model.Construct
import Verif.Model.Device

/-!
# Model of the constructors of components as assignments of attributes, and of training

`/repo/photontorch/components/*.py:__init__` on top of `Module.__setattr__` (`Verif/Model/Attr.lean`). The attributes that
`Component.__init__` itself makes (`/repo/photontorch/components/component.py:58-105`) are those of `Part.comp`.
-/

namespace PT

/-- A call of a constructor with all its arguments; `t` is `trainable`. Weights of an `Mmi` are given as a complex array (the other
forms are in `mmiNew`). `/repo/photontorch/components/mirrors.py:35`, `waveguides.py:33-44`, `directionalcouplers.py:41,97-109,194-206`,
`mzis.py:44-55`, `gratingcouplers.py:41-43`, `soas.py:43`, `mmis.py:45`. -/
inductive Call where
  | term | source | detector | connection
  | mirror (R : ℝ) (t : Bool)
  | waveguide (length loss neff wl0 ng phase : ℝ) (t : Bool)
  | coupler (coupling : ℝ) (t : Bool)
  | longCoupler (length coupling loss neff wl0 ng phase : ℝ) (tPhase tCoupling : Bool)
  | realisticCoupler (length k0 n0 de1k0 de1n0 de2k0 de2n0 wl0 : ℝ)
  | mzi (phi theta neff ng wl0 length loss : ℝ) (t : Bool)
  | grating (R Rin Tmax bandwidth wl0 : ℝ)
  | linearSoa (amplification : ℝ) (t : Bool)
  | mmi (m n : ℕ) (w : Matrix (Fin m) (Fin n) ℂ) (t : Bool)

/-- The class of an object, `/repo/photontorch/components/*.py`. -/
inductive Cls where
  | term | source | detector | connection | mirror | waveguide | coupler | longCoupler | realisticCoupler | mzi | grating | linearSoa
  | mmi

/-- A component as an object: its class, its attributes, which of its registered parameters have `requires_grad`
(`/repo/photontorch/nn/nn.py:71,90-94`), and the weights of an `Mmi` (a tensor with more than one entry,
`/repo/photontorch/components/mmis.py:82-83`). -/
structure Obj where
  kind : Cls
  attrs : Attrs
  grad : Str → Bool
  weights : Option MmiWeights

/-- The name under which a value is registered, `/repo/photontorch/nn/nn.py:145`. -/
def AVal.key (a : Str) : AVal → Str
  | .bounded _ _ _ => '_' :: a
  | _ => a

/-- Assignments one after the other, until one raises; the flag of an assignment is `requires_grad`;
`/repo/photontorch/nn/nn.py:139-162`. -/
noncomputable def Obj.assign (o : Obj) : List (Str × AVal × Bool) → Except PyErr Obj
  | [] => .ok o
  | (a, v, g) :: l =>
    match o.attrs.set a v with
    | (_, some e) => .error e
    | (s, none) => Obj.assign { o with attrs := s, grad := setKey o.grad (v.key a) g } l

/-- A new object without attributes of its own, `/repo/photontorch/nn/nn.py:135-137`. -/
def Obj.blank (k : Cls) : Obj := ⟨k, {}, fun _ => false, none⟩

/-- `self.a = float(x)` and the like, e.g. `/repo/photontorch/components/waveguides.py:61-66`. -/
def plain (a : Str) (x : ℝ) : Str × AVal × Bool := (a, .number x, false)

/-- `parameter = Parameter if trainable else Buffer; self.a = parameter(torch.tensor(x))`, e.g.
`/repo/photontorch/components/waveguides.py:67-70`. -/
def paramOrBuffer (a : Str) (x : ℝ) (t : Bool) : Str × AVal × Bool := (a, if t then .param x else .buffer x, t)

/-- `self.a = BoundedParameter(data=torch.tensor(x), bounds=(0, 1), requires_grad=t)`, e.g.
`/repo/photontorch/components/mirrors.py:44-48`. -/
noncomputable def boundedAttr (a : Str) (x : ℝ) (t : Bool) : Except PyErr (Str × AVal × Bool) :=
  (boundedNew [x] 0 1).map fun p => (a, .bounded (p.weights.headD 0) p.lo p.hi, t)

/-- The coupling of a directional coupler, `/repo/photontorch/components/directionalcouplers.py:50-59,140-149`. -/
noncomputable def couplingAttr (x : ℝ) (t : Bool) : Except PyErr (Str × AVal × Bool) :=
  if t then boundedAttr ['c', 'o', 'u', 'p', 'l', 'i', 'n', 'g'] x true
  else .ok (['c', 'o', 'u', 'p', 'l', 'i', 'n', 'g'], .buffer x, false)

/-- The names `loss`, `neff`, `wl0`, `ng`, `length` and their values, `/repo/photontorch/components/waveguides.py:61-65`,
`directionalcouplers.py:127-131`. -/
def lengthAttrs (length loss neff wl0 ng : ℝ) : List (Str × AVal × Bool) :=
  [plain ['l', 'o', 's', 's'] loss, plain ['n', 'e', 'f', 'f'] neff, plain ['w', 'l', '0'] wl0, plain ['n', 'g'] ng,
    plain ['l', 'e', 'n', 'g', 't', 'h'] length]

/-- A python `bool` in an attribute, `/repo/photontorch/components/waveguides.py:66`, `directionalcouplers.py:132-133`. -/
def flag (a : Str) (t : Bool) : Str × AVal × Bool := plain a (if t then 1 else 0)

/-- The constructors: `/repo/photontorch/components/mirrors.py:42-48`, `waveguides.py:59-70`, `directionalcouplers.py:48-59,125-149,226-234`,
`mzis.py:68-80`, `gratingcouplers.py:53-58`, `soas.py:50-55`, `mmis.py:60-83`. -/
noncomputable def Call.new : Call → Except PyErr Obj
  | .term => .ok (Obj.blank .term)
  | .source => .ok (Obj.blank .source)
  | .detector => .ok (Obj.blank .detector)
  | .connection => .ok (Obj.blank .connection)
  | .mirror R t => (boundedAttr ['R'] R t).bind fun x => (Obj.blank .mirror).assign [x]
  | .waveguide length loss neff wl0 ng phase t =>
    (Obj.blank .waveguide).assign (lengthAttrs length loss neff wl0 ng ++
      [flag ['t', 'r', 'a', 'i', 'n', 'a', 'b', 'l', 'e'] t, paramOrBuffer ['p', 'h', 'a', 's', 'e'] (modTwoPi phase) t])
  | .coupler k t => (couplingAttr k t).bind fun x => (Obj.blank .coupler).assign [x]
  | .longCoupler length k loss neff wl0 ng phase tp tc =>
    (couplingAttr k tc).bind fun x => (Obj.blank .longCoupler).assign (lengthAttrs length loss neff wl0 ng ++
      [flag ['t', 'r', 'a', 'i', 'n', 'a', 'b', 'l', 'e', '_', 'p', 'h', 'a', 's', 'e'] tp,
        flag ['t', 'r', 'a', 'i', 'n', 'a', 'b', 'l', 'e', '_', 'c', 'o', 'u', 'p', 'l', 'i', 'n', 'g'] tc,
        paramOrBuffer ['p', 'h', 'a', 's', 'e'] (modTwoPi phase) tp, x])
  | .realisticCoupler length k0 n0 d1k d1n d2k d2n wl0 =>
    (Obj.blank .realisticCoupler).assign [plain ['l', 'e', 'n', 'g', 't', 'h'] length, plain ['k', '0'] k0,
      plain ['d', 'e', '1', '_', 'k', '0'] d1k, plain ['d', 'e', '2', '_', 'k', '0'] d2k, plain ['n', '0'] n0,
      plain ['d', 'e', '1', '_', 'n', '0'] d1n, plain ['d', 'e', '2', '_', 'n', '0'] d2n, plain ['w', 'l', '0'] wl0]
  | .mzi phi theta neff ng wl0 length loss t =>
    (Obj.blank .mzi).assign [plain ['n', 'g'] ng, plain ['n', 'e', 'f', 'f'] neff, plain ['l', 'e', 'n', 'g', 't', 'h'] length,
      plain ['l', 'o', 's', 's'] loss, plain ['w', 'l', '0'] wl0, paramOrBuffer ['p', 'h', 'i'] phi t,
      paramOrBuffer ['t', 'h', 'e', 't', 'a'] theta t]
  | .grating R Rin Tmax bw wl0 =>
    (Obj.blank .grating).assign [plain ['R'] R, plain ['R', '_', 'i', 'n'] Rin, plain ['b', 'a', 'n', 'd', 'w', 'i', 'd', 't', 'h'] bw,
      plain ['w', 'l', '0'] wl0, plain ['T', 'm', 'a', 'x'] Tmax]
  | .linearSoa a t =>
    (Obj.blank .linearSoa).assign
      [paramOrBuffer ['a', 'm', 'p', 'l', 'i', 'f', 'i', 'c', 'a', 't', 'i', 'o', 'n'] a t]
  | .mmi m n w t => (mmiNew (.array2 m n w)).map fun w =>
    ⟨.mmi, {}, setKey (fun _ => false) ['w', 'e', 'i', 'g', 'h', 't', 's'] t, some w⟩

/-- A number read from an attribute in `set_S` or `set_delays`, e.g. `/repo/photontorch/components/waveguides.py:73`. -/
noncomputable def Obj.num (o : Obj) (a : Str) : Except PyErr ℝ := (o.attrs.read a).map EReal.toReal

/-- `Waveguide.set_S`, `/repo/photontorch/components/waveguides.py:75-91`, with `self.phase` as it is. -/
noncomputable def waveguideSet (length loss neff wl0 ng phase wl : ℝ) : SMat 2 :=
  let ph := propagation length neff wl0 ng wl + phase
  let l := lossFactor loss length
  (SMat.zero.setRe2 0 1 (l * Real.cos ph)).setIm2 0 1 (l * Real.sin ph)

/-- `DirectionalCouplerWithLength.set_S`, `/repo/photontorch/components/directionalcouplers.py:154-173`, with `self.phase` as it is. -/
noncomputable def longCouplerSet (length coupling loss phase : ℝ) : SMat 4 :=
  let kappa := √coupling
  let tau := √(1 - coupling)
  let c := Real.cos phase
  let s := Real.sin phase
  let l := lossFactor loss length
  ((((((((SMat.zero.setRe2 0 1 (tau * l * c)).setIm2 0 1 (tau * l * s)).setRe2 0 2 (-kappa * l * s)).setIm2 0 2
    (kappa * l * c)).setRe2 1 3 (-kappa * l * s)).setIm2 1 3 (kappa * l * c)).setRe2 2 3
    (tau * l * c)).setIm2 2 3 (tau * l * s))

/-- What `set_S` and `set_delays` write, together with the buffers of `Component.__init__`,
`/repo/photontorch/components/component.py:58-150`. -/
noncomputable def devOf (c : Comp) {n : ℕ} (S : ℝ → SMat n) (delay : ℝ → ℝ) : Dev :=
  ⟨c, fun wl => ofFin (S wl).re, fun wl => ofFin (S wl).im, fun v i => if i < n then delay v else 0⟩

/-- `set_S` and `set_delays` of an object, from its attributes: `/repo/photontorch/components/mirrors.py:50-60`,
`waveguides.py:72-91`, `directionalcouplers.py:61-71,151-173,236-253`, `mzis.py:82-113`, `gratingcouplers.py:60-72`, `soas.py:57-59`,
`mmis.py:85-89`. -/
noncomputable def Obj.dev (o : Obj) : Except PyErr Dev :=
  match o.kind with
  | .term => .ok Part.term.dev
  | .source => .ok Part.source.dev
  | .detector => .ok Part.detector.dev
  | .connection => .ok Part.connection.dev
  | .mirror => do
    let R ← o.num ['R']
    return devOf (passive 2) (fun _ => mirrorS R) fun _ => 0
  | .waveguide => do
    let ng ← o.num ['n', 'g']
    let length ← o.num ['l', 'e', 'n', 'g', 't', 'h']
    let neff ← o.num ['n', 'e', 'f', 'f']
    let wl0 ← o.num ['w', 'l', '0']
    let phase ← o.num ['p', 'h', 'a', 's', 'e']
    let loss ← o.num ['l', 'o', 's', 's']
    return devOf (passive 2) (waveguideSet length loss neff wl0 ng phase) (lengthDelay ng length)
  | .coupler => do
    let k ← o.num ['c', 'o', 'u', 'p', 'l', 'i', 'n', 'g']
    return devOf (passive 4) (fun _ => couplerS k) fun _ => 0
  | .longCoupler => do
    let ng ← o.num ['n', 'g']
    let length ← o.num ['l', 'e', 'n', 'g', 't', 'h']
    let k ← o.num ['c', 'o', 'u', 'p', 'l', 'i', 'n', 'g']
    let phase ← o.num ['p', 'h', 'a', 's', 'e']
    let loss ← o.num ['l', 'o', 's', 's']
    return devOf (passive 4) (fun _ => longCouplerSet length k loss phase) (lengthDelay ng length)
  | .realisticCoupler => do
    let wl0 ← o.num ['w', 'l', '0']
    let n0 ← o.num ['n', '0']
    let d1n ← o.num ['d', 'e', '1', '_', 'n', '0']
    let d2n ← o.num ['d', 'e', '2', '_', 'n', '0']
    let k0 ← o.num ['k', '0']
    let d1k ← o.num ['d', 'e', '1', '_', 'k', '0']
    let d2k ← o.num ['d', 'e', '2', '_', 'k', '0']
    let length ← o.num ['l', 'e', 'n', 'g', 't', 'h']
    return devOf (passive 4) (realisticCouplerS length k0 n0 d1k d1n d2k d2n wl0) fun _ => 0
  | .mzi => do
    let ng ← o.num ['n', 'g']
    let length ← o.num ['l', 'e', 'n', 'g', 't', 'h']
    let neff ← o.num ['n', 'e', 'f', 'f']
    let wl0 ← o.num ['w', 'l', '0']
    let phi ← o.num ['p', 'h', 'i']
    let theta ← o.num ['t', 'h', 'e', 't', 'a']
    let _ ← o.num ['l', 'o', 's', 's']
    return devOf (passive 4) (mziS phi theta length neff wl0 ng) (lengthDelay ng length)
  | .grating => do
    let bw ← o.num ['b', 'a', 'n', 'd', 'w', 'i', 'd', 't', 'h']
    let Tmax ← o.num ['T', 'm', 'a', 'x']
    let wl0 ← o.num ['w', 'l', '0']
    let Rin ← o.num ['R', '_', 'i', 'n']
    let R ← o.num ['R']
    return devOf (passive 2) (gratingS R Rin Tmax bw wl0) fun _ => 0
  | .linearSoa => do
    let a ← o.num ['a', 'm', 'p', 'l', 'i', 'f', 'i', 'c', 'a', 't', 'i', 'o', 'n']
    return devOf (passive 2) (fun _ => linearSoaS a) fun _ => 0
  | .mmi =>
    match o.weights with
    | none => .error .attributeError
    | some w => (mmiSetS w).map fun S => devOf (passive (w.m + w.n)) (fun _ => S) fun _ => 0

/-- A number added to a registered parameter; for a bounded parameter to its weight, `/repo/photontorch/nn/nn.py:143-145`. -/
noncomputable def AVal.bump (δ : ℝ) : AVal → AVal
  | .param x => .param (x + δ)
  | .bounded w lo hi => .bounded (w + (δ : EReal)) lo hi
  | v => v

/-- A step of an optimizer of `network.parameters()`: finite numbers are added to the parameters with `requires_grad`, the others (and
buffers and plain attributes) stay. The optimizer is torch's; what it can reach is what is registered by
`/repo/photontorch/nn/nn.py:139-162` and `/repo/photontorch/components/mmis.py:82-83`. -/
noncomputable def Obj.train (o : Obj) (δ : (Str → ℝ) × (ℕ → ℕ → ℕ → ℝ)) : Obj :=
  { o with
    attrs := { o.attrs with params := fun k => (o.attrs.params k).map fun v => if o.grad k then v.bump (δ.1 k) else v }
    weights := o.weights.map fun w => if o.grad ['w', 'e', 'i', 'g', 'h', 't', 's'] then
      { w with w := fun k => Matrix.of fun i j => w.w k i j + δ.2 k i j } else w }

end PT
