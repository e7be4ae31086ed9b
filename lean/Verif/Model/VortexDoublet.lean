import Verif.NumPy

/-!
# Model of `wiz/VortexDoublet.py`
-/
namespace Wiz
noncomputable section
open Classical

/-- `doublet_u(Xcp,Ycp,Zcp,m,x0)` at one control point.  Models wiz/VortexDoublet.py:10-47
(the masked assignments `r_norm3[bSing]=1`, `ui[bSing]=0` are pointwise). -/
def doubletU (p : V3 ℝ) (m : V3 Num) (x0 : V3 ℝ) : V3 Num :=
  let DX : Num := .fin p.x - .fin x0.x
  let DY : Num := .fin p.y - .fin x0.y
  let DZ : Num := .fin p.z - .fin x0.z
  let r_norm3 := Num.rpow (DX^2 + DY^2 + DZ^2) (3/2)
  let bSing := r_norm3 < .fin (1e-8)
  let r_norm3 := if bSing then 1 else r_norm3
  let r_norm5 := Num.rpow r_norm3 (5/3)
  let m_dot_r := DX*m.x + DY*m.y + DZ*m.z
  let Fact1 := 1 / .fin (4*Real.pi) * 3 * m_dot_r / r_norm5
  let Fact2 := 1 / .fin (4*Real.pi) / r_norm3
  if bSing then ⟨0, 0, 0⟩
  else ⟨Fact1*DX - Fact2*m.x, Fact1*DY - Fact2*m.y, Fact1*DZ - Fact2*m.z⟩

/-- `doublet_u_polar(rcp,zcp,m_z,z0)` at one control point, result `(ur,uz)`.
Models wiz/VortexDoublet.py:49-79 (a batch raises iff one of its points has `r<0`). -/
def doubletUPolar (r z : ℝ) (m_z : Num) (z0 : ℝ) : Except String (Num × Num) :=
  if r < 0 then .error "Script meant for positive r"
  else
    let rcp : Num := .fin r
    let DZ : Num := .fin z - .fin z0
    let r_norm3 := Num.rpow (rcp^2 + DZ^2) (3/2)
    let bSing := r_norm3 < .fin (1e-8)
    let r_norm3 := if bSing then 1 else r_norm3
    let r_norm5 := Num.rpow r_norm3 (5/3)
    let ur := 3*rcp*m_z / .fin (4*Real.pi) * DZ / r_norm5
    let uz := m_z / .fin (4*Real.pi) * (3 * DZ^2 / r_norm5 - 1/r_norm3)
    if bSing then .ok (0, 0) else .ok (ur, uz)

/-- `doublet_line_polar_u(rcp,zcp,dmz_dz)` at one control point, result `(ur,uz)`.
Models wiz/VortexDoublet.py:110-148.  The masked assignments are applied in the order of
the code; points matched by no mask keep the initial zeros. -/
def doubletLinePolarU (r z : ℝ) (dmz_dz : Num) : Except String (Num × Num) :=
  if r < 0 then .error "Script meant for positive r"
  else
    let bZ0 := |z| < 1e-8
    let bR0 := |r| < 1e-8
    let bZ0R0 := bZ0 ∧ bR0
    let bZ0Rp := bZ0 ∧ |r| > 1e-8
    let bR0Zp := bR0 ∧ z > 1e-8
    let bR0Zm := bR0 ∧ z < -1e-8
    let bOK := ¬ bZ0 ∧ ¬ bR0
    let rN : Num := .fin r
    let zN : Num := .fin z
    let norm2 := rN^2 + zN^2
    let k := dmz_dz / .fin (4*Real.pi)
    let uz : Num := 0
    let ur : Num := 0
    let uz := if bOK then k * 1 / rN^2 * (zN^3 / Num.rpow norm2 (3/2) - zN / Num.rpow norm2 (1/2)) else uz
    let uz := if bZ0Rp then 0 else uz
    let uz := if bR0Zm then k * 1 / norm2 else uz
    let ur := if bOK then -k * rN * 1 / Num.rpow norm2 (3/2) else ur
    let ur := if bZ0Rp then -k * rN * 1 / Num.rpow norm2 (3/2) else ur
    let ur := if bR0Zm then 0 else ur
    let ur := if bR0Zp then 0 else ur
    let ur := if bZ0R0 then 0 else ur
    let uz := if bZ0R0 then 0 else uz
    .ok (ur, uz)

/-- `I30(a,b,c)`.  Models wiz/VortexDoublet.py:274-279. -/
def I30 (a b c : Num) : Num := 1/(a*(a*c-b))
/-- `tI50(a,b,c)`.  Models wiz/VortexDoublet.py:281-286. -/
def tI50 (a b c : Num) : Num := (2*a*c-b)/(a^3*(a*c-b)^2)
/-- `tI51(a,b,c)`.  Models wiz/VortexDoublet.py:288-293. -/
def tI51 (a b c : Num) : Num := 1/(a*(a*c-b)^2)
/-- `tI52(a,b,c)`.  Models wiz/VortexDoublet.py:295-300. -/
def tI52 (a b c : Num) : Num := 1/(c*(a*c-b)^2)

/-- `I30_num(x,y,z,m,nQuad,zmax)`: trapezoidal reference value of the first integral (`r2**(3/2)` is
a real power).  Models wiz/VortexDoublet.py:302-306. -/
def I30num (x y z m : ℝ) (nQuad : ℕ) (zmax : ℝ) : Num :=
  let zp := linspace 0 zmax nQuad
  trapz (zp.map fun s => 1 / Num.rpow (.fin ((x-m*s)^2 + y^2 + (z-s)^2)) (3/2)) zp
/-- `I50_num(x,y,z,m,nQuad,zmax)`.  Models wiz/VortexDoublet.py:308-312. -/
def I50num (x y z m : ℝ) (nQuad : ℕ) (zmax : ℝ) : Num :=
  let zp := linspace 0 zmax nQuad
  trapz (zp.map fun s => 1 / Num.rpow (.fin ((x-m*s)^2 + y^2 + (z-s)^2)) (5/2)) zp
/-- `I51_num(x,y,z,m,nQuad,zmax)`.  Models wiz/VortexDoublet.py:314-318. -/
def I51num (x y z m : ℝ) (nQuad : ℕ) (zmax : ℝ) : Num :=
  let zp := linspace 0 zmax nQuad
  trapz (zp.map fun s => .fin s / Num.rpow (.fin ((x-m*s)^2 + y^2 + (z-s)^2)) (5/2)) zp
/-- `I52_num(x,y,z,m,nQuad,zmax)`.  Models wiz/VortexDoublet.py:320-324. -/
def I52num (x y z m : ℝ) (nQuad : ℕ) (zmax : ℝ) : Num :=
  let zp := linspace 0 zmax nQuad
  trapz (zp.map fun s => (.fin s)^2 / Num.rpow (.fin ((x-m*s)^2 + y^2 + (z-s)^2)) (5/2)) zp

/-- `i30indef_sing`.  Models wiz/VortexDoublet.py:336-338. -/
def i30indefSing (a b c x : Num) : Num := let s := Num.sign b; s/(2*c*(a - s*c*x)^2)
/-- `i30indef_norm`.  Models wiz/VortexDoublet.py:339-340. -/
def i30indefNorm (a b c x : Num) : Num := (b - c^2*x)/((b^2 - a^2*c^2)*Num.sqrt (a^2 - 2*b*x + c^2*x^2))
/-- `i50indef_sing`.  Models wiz/VortexDoublet.py:342-344. -/
def i50indefSing (a b c x : Num) : Num := let s := Num.sign b; 3*s/(4*c*(a - s*c*x)^4)
/-- `i50indef_norm`.  Models wiz/VortexDoublet.py:345-346. -/
def i50indefNorm (a b c x : Num) : Num :=
  (b*(b^2 - 3*a^2*c^2) + 2*c^2*(b^2 + a^2*c^2)*x - 6*b*c^4*x^2 + 2*c^6*x^3)
    / ((b^2 - a^2*c^2)^2*Num.rpow (a^2 - 2*b*x + c^2*x^2) (3/2))
/-- `i51indef_sing`.  Models wiz/VortexDoublet.py:348-350. -/
def i51indefSing (a b c x : Num) : Num :=
  let s := Num.sign b; -3*(a - s*4*c*x)/(12*c^2*(a - s*c*x)^4)
/-- `i51indef_norm`.  Models wiz/VortexDoublet.py:351-352. -/
def i51indefNorm (a b c x : Num) : Num :=
  (-(a^2)*(b^2 + a^2*c^2) + 3*b*(b^2 + a^2*c^2)*x - 6*b^2*c^2*x^2 + 2*b*c^4*x^3)
    / ((b^2 - a^2*c^2)^2*Num.rpow (a^2 - 2*b*x + c^2*x^2) (3/2))
/-- `i52indef_sing`.  Models wiz/VortexDoublet.py:354-356. -/
def i52indefSing (a b c x : Num) : Num :=
  let s := Num.sign b; 3*s*(a^2 - s*4*a*c*x + 6*c^2*x^2)/(12*c^3*(a - s*c*x)^4)
/-- `i52indef_norm`.  Models wiz/VortexDoublet.py:357-358. -/
def i52indefNorm (a b c x : Num) : Num :=
  (-2*a^4*b + 6*a^2*b^2*x - 3*b*(b^2 + a^2*c^2)*x^2 + c^2*(b^2 + a^2*c^2)*x^3)
    / ((b^2 - a^2*c^2)^2*Num.rpow (a^2 - 2*b*x + c^2*x^2) (3/2))

/-- `_integrals_DL_finite(a,b,c,L)` at one control point: `(I30, 3 I50, 3 I51, 3 I52)`.
Models wiz/VortexDoublet.py:330-376. -/
def integralsDLfinite (a b c L : Num) : Num × Num × Num × Num :=
  if Num.abs (b^2 - a^2*c^2) < .fin (1e-8) then
    (i30indefSing a b c L - i30indefSing a b c 0, i50indefSing a b c L - i50indefSing a b c 0,
     i51indefSing a b c L - i51indefSing a b c 0, i52indefSing a b c L - i52indefSing a b c 0)
  else
    (i30indefNorm a b c L - i30indefNorm a b c 0, i50indefNorm a b c L - i50indefNorm a b c 0,
     i51indefNorm a b c L - i51indefNorm a b c 0, i52indefNorm a b c L - i52indefNorm a b c 0)

/-- the four line integrals used by `doublet_line_u` (`L = none` is `np.inf`).
Models wiz/VortexDoublet.py:197-203. -/
def doubletLineIntegrals (a b c : Num) : Option ℝ → Num × Num × Num × Num
  | none => (I30 a b c, tI50 a b c, tI51 a b c, tI52 a b c)
  | some L => integralsDLfinite a b c (.fin L)

/-- `doublet_line_u(Xcp,Ycp,Zcp,dmz_dz,m,L)` at one control point.
Models wiz/VortexDoublet.py:150-209. -/
def doubletLineU (p : V3 ℝ) (dmz_dz : Num) (m : ℝ) (L : Option ℝ) : V3 Num :=
  let X : Num := .fin p.x
  let Y : Num := .fin p.y
  let Z : Num := .fin p.z
  let mN : Num := .fin m
  let a := Num.sqrt (X^2 + Y^2 + Z^2)
  let b := mN*X + Z
  let c := Num.sqrt (mN^2 + 1)
  if |p.y| < 1e-8 ∧ |p.x - m*p.z| < 1e-8 ∧ p.z ≥ 0 ∧ (∀ l ∈ L, p.z ≤ l) then ⟨0, 0, 0⟩
  else
    let (i30, ti50, ti51, ti52) := doubletLineIntegrals a b c L
    let k := dmz_dz / .fin (4*Real.pi)
    ⟨k * (X*Z*ti50 + mN*ti52 - (mN*Z+X)*ti51),
     k * (Y*Z*ti50 - Y*ti51),
     k * (Z^2*ti50 + ti52 - 2*Z*ti51 - i30)⟩

/-- `doublet_line_u_num(Xcp,Ycp,Zcp,dmz_dz,m,zmax,nQuad)` at one control point (the default
values of `nQuad` are ≥ 2; with fewer points `zq[1]` raises an `IndexError`).
Models wiz/VortexDoublet.py:212-233. -/
def doubletLineUNum (p : V3 ℝ) (dmz_dz : Num) (m zmax : ℝ) (nQuad : ℕ) : Except String (V3 Num) :=
  let zq := linspace 0 zmax nQuad
  match zq with
  | z0 :: z1 :: _ =>
    let mz := dmz_dz * .fin (z1 - z0)
    .ok (zq.foldl (fun u z0 => u + doubletU p ⟨0, 0, mz⟩ ⟨m*z0, 0, z0⟩) 0)
  | _ => .error "IndexError"

/-- `doublet_line_polar_u_num(rcp,zcp,dmz_dz,z0,zmax,nQuad)` at one control point, result
`(ur,uz)`.  Models wiz/VortexDoublet.py:85-108 (an exception of `doublet_u_polar` propagates). -/
def doubletLinePolarUNum (r z : ℝ) (dmz_dz : Num) (z0 zmax : ℝ) (nQuad : ℕ) : Except String (Num × Num) :=
  let zq := linspace z0 zmax nQuad
  match zq with
  | z0 :: z1 :: _ =>
    let mz := dmz_dz * .fin (z1 - z0)
    zq.foldl (fun acc z0 =>
      match acc, doubletUPolar r z mz z0 with
      | .ok (ur, uz), .ok (dur, duz) => .ok (ur + dur, uz + duz)
      | .error e, _ => .error e
      | _, .error e => .error e) (.ok (0, 0))
  | _ => .error "IndexError"

end
end Wiz
