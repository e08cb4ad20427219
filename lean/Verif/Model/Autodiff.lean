import Verif.Model.Cameras
/-
The forward-mode automatic differentiation: _autodiff.hh. Arithmetic is exact: `double` is ℝ.

`val_withgrad_t<NGRAD>` is a value `x` and NGRAD partial derivatives `j`.
-/
namespace Mrcal.AD

/-- `val_withgrad_t` _autodiff.hh:26-30 -/
@[ext] structure Val (N : Nat) where
  x : ℝ
  j : Fin N → ℝ

variable {N : Nat}

/-- the constructor from a double: no dependence on any variable. _autodiff.hh:32-36 -/
def Val.ofR (a : ℝ) : Val N := ⟨a, fun _ => 0⟩
/-- _autodiff.hh:38-46 -/
def Val.add (a b : Val N) : Val N := ⟨a.x + b.x, fun i => a.j i + b.j i⟩
/-- `operator+(double)` _autodiff.hh:47-53 -/
def Val.addC (a : Val N) (b : ℝ) : Val N := ⟨a.x + b, a.j⟩
/-- _autodiff.hh:59-67 -/
def Val.sub (a b : Val N) : Val N := ⟨a.x - b.x, fun i => a.j i - b.j i⟩
/-- `operator-(double)` _autodiff.hh:68-74 -/
def Val.subC (a : Val N) (b : ℝ) : Val N := ⟨a.x - b, a.j⟩
/-- _autodiff.hh:85-93 -/
def Val.mul (a b : Val N) : Val N := ⟨a.x * b.x, fun i => a.j i * b.x + a.x * b.j i⟩
/-- `operator*(double)` _autodiff.hh:94-102 -/
def Val.mulC (a : Val N) (b : ℝ) : Val N := ⟨a.x * b, fun i => a.j i * b⟩
/-- unary minus _autodiff.hh:80-84 -/
def Val.neg (a : Val N) : Val N := a.mulC (-1)
/-- _autodiff.hh:113-121 -/
noncomputable def Val.div (a b : Val N) : Val N := ⟨a.x / b.x, fun i => (a.j i * b.x - a.x * b.j i) / (b.x * b.x)⟩
/-- `operator/(double)` _autodiff.hh:122-126 -/
noncomputable def Val.divC (a : Val N) (b : ℝ) : Val N := a.mulC (1 / b)
/-- _autodiff.hh:137-145 -/
noncomputable def Val.sqrt (a : Val N) : Val N := ⟨Real.sqrt a.x, fun i => a.j i / (2 * Real.sqrt a.x)⟩
/-- _autodiff.hh:147-155 -/
def Val.square (a : Val N) : Val N := ⟨a.x * a.x, fun i => 2 * a.x * a.j i⟩
/-- _autodiff.hh:157-167, and the first element of `sincos()` 181-196 -/
noncomputable def Val.sin (a : Val N) : Val N := ⟨Real.sin a.x, fun i => Real.cos a.x * a.j i⟩
/-- _autodiff.hh:169-179, and the second element of `sincos()` 181-196 -/
noncomputable def Val.cos (a : Val N) : Val N := ⟨Real.cos a.x, fun i => -Real.sin a.x * a.j i⟩
/-- _autodiff.hh:198-208 -/
noncomputable def Val.tan (a : Val N) : Val N :=
  ⟨Real.sin a.x / Real.cos a.x, fun i => a.j i / (Real.cos a.x * Real.cos a.x)⟩
/-- `y.atan2(x)` _autodiff.hh:210-226 -/
noncomputable def Val.atan2 (y x : Val N) : Val N :=
  ⟨Cam.atan2 y.x x.x, fun i => (y.j i * x.x - y.x * x.j i) / (y.x * y.x + x.x * x.x)⟩
/-- _autodiff.hh:231-240 -/
noncomputable def Val.asin (a : Val N) : Val N := ⟨Real.arcsin a.x, fun i => 1 / Real.sqrt (1 - a.x * a.x) * a.j i⟩
/-- _autodiff.hh:245-254 -/
noncomputable def Val.acos (a : Val N) : Val N := ⟨Real.arccos a.x, fun i => -1 / Real.sqrt (1 - a.x * a.x) * a.j i⟩
/-- _autodiff.hh:256-278 -/
noncomputable def Val.sinxOverX (a sinx : Val N) : Val N := if |a.x| < 1e-5 then Val.ofR 1 else sinx.div a

/-- `vec_withgrad_t<NGRAD,3>` -/
@[ext] structure Vec3 (N : Nat) where
  x : Val N
  y : Val N
  z : Val N

/-- `init_vars(p, 0,3, i_gradvec0)` _autodiff.hh:289-309: the variables are seeded at gradient index `g`. `none` is i_gradvec0 < 0 -/
def Vec3.init (p : P3) (g : Option Nat) : Vec3 N :=
  let seed (k : Nat) : Fin N → ℝ := fun i => match g with
    | none => 0
    | some g => if i.val = g + k then 1 else 0
  ⟨⟨p.x, seed 0⟩, ⟨p.y, seed 1⟩, ⟨p.z, seed 2⟩⟩
/-- `extract_value` -/
def Vec3.value (v : Vec3 N) : P3 := ⟨v.x.x, v.y.x, v.z.x⟩
/-- `extract_grad(J, g, 3, 0, ...)` _autodiff.hh:537-547: the three rows -/
def Vec3.grad (v : Vec3 N) (g : Nat) (h : g + 2 < N) : P3 × P3 × P3 :=
  let row (a : Val N) : P3 := ⟨a.j ⟨g, by omega⟩, a.j ⟨g + 1, by omega⟩, a.j ⟨g + 2, by omega⟩⟩
  (row v.x, row v.y, row v.z)
/-- vector difference -/
def Vec3.sub (a b : Vec3 N) : Vec3 N := ⟨a.x.sub b.x, a.y.sub b.y, a.z.sub b.z⟩
/-- vector sum -/
def Vec3.add (a b : Vec3 N) : Vec3 N := ⟨a.x.add b.x, a.y.add b.y, a.z.add b.z⟩
/-- `operator*(val)` -/
def Vec3.mulV (a : Vec3 N) (k : Val N) : Vec3 N := ⟨a.x.mul k, a.y.mul k, a.z.mul k⟩
/-- `operator*(double)` -/
def Vec3.mulC (a : Vec3 N) (k : ℝ) : Vec3 N := ⟨a.x.mulC k, a.y.mulC k, a.z.mulC k⟩
/-- `operator/(val)` -/
noncomputable def Vec3.divV (a : Vec3 N) (k : Val N) : Vec3 N := ⟨a.x.div k, a.y.div k, a.z.div k⟩
/-- `dot` _autodiff.hh:495-505: accumulates from 0 -/
def Vec3.dot (a b : Vec3 N) : Val N := (((Val.ofR 0).add (b.x.mul a.x)).add (b.y.mul a.y)).add (b.z.mul a.z)
/-- `cross` _autodiff.hh:507-515 -/
def Vec3.cross (a b : Vec3 N) : Vec3 N :=
  ⟨(a.y.mul b.z).sub (a.z.mul b.y), (a.z.mul b.x).sub (a.x.mul b.z), (a.x.mul b.y).sub (a.y.mul b.x)⟩
/-- `norm2` -/
def Vec3.norm2 (a : Vec3 N) : Val N := a.dot a
/-- `mag` _autodiff.hh:523-528 -/
noncomputable def Vec3.mag (a : Vec3 N) : Val N := a.norm2.sqrt

/-- Any expression that C++ code can build from the above. This is syntax; the variables are the seeded ones -/
inductive Expr (N : Nat) where
  | var (i : Fin N)
  | const (c : ℝ)
  | add (a b : Expr N)
  | addC (a : Expr N) (c : ℝ)
  | sub (a b : Expr N)
  | subC (a : Expr N) (c : ℝ)
  | neg (a : Expr N)
  | mul (a b : Expr N)
  | mulC (a : Expr N) (c : ℝ)
  | div (a b : Expr N)
  | divC (a : Expr N) (c : ℝ)
  | sqrt (a : Expr N)
  | square (a : Expr N)
  | sin (a : Expr N)
  | cos (a : Expr N)
  | tan (a : Expr N)
  | atan2 (y x : Expr N)
  | asin (a : Expr N)
  | acos (a : Expr N)
  | sinxOverX (a : Expr N)

/-- the expression, evaluated by the operators of _autodiff.hh -/
noncomputable def Expr.evalV (p : Fin N → ℝ) : Expr N → Val N
  | var i => ⟨p i, fun k => if k = i then 1 else 0⟩
  | const c => Val.ofR c
  | add a b => (a.evalV p).add (b.evalV p)
  | addC a c => (a.evalV p).addC c
  | sub a b => (a.evalV p).sub (b.evalV p)
  | subC a c => (a.evalV p).subC c
  | neg a => (a.evalV p).neg
  | mul a b => (a.evalV p).mul (b.evalV p)
  | mulC a c => (a.evalV p).mulC c
  | div a b => (a.evalV p).div (b.evalV p)
  | divC a c => (a.evalV p).divC c
  | sqrt a => (a.evalV p).sqrt
  | square a => (a.evalV p).square
  | sin a => (a.evalV p).sin
  | cos a => (a.evalV p).cos
  | tan a => (a.evalV p).tan
  | atan2 y x => (y.evalV p).atan2 (x.evalV p)
  | asin a => (a.evalV p).asin
  | acos a => (a.evalV p).acos
  | sinxOverX a => (a.evalV p).sinxOverX (a.evalV p).sin

end Mrcal.AD
