import Verif.Model.Solver

/-!
# Memory model of `wiz/Solver.py`: which arrays do the solvers write to?

A heap of 1-d float arrays.  `np.asarray(x).ravel()` of a 1-d float array returns a view of the
same buffer, i.e. the same reference; arithmetic and `np.zeros` create new arrays; `x[i]=v` writes
to the buffer.  Python exceptions leave the heap as it is at the time of the exception.
-/
namespace Wiz
noncomputable section
open Classical

/-- heap of arrays: `cells r i` is entry `i` of array `r`; references from `next` on are unused -/
structure Heap where
  len : ℕ → ℕ
  cells : ℕ → ℕ → Num
  next : ℕ

namespace Heap
/-- a new array; its reference is `h.next` -/
def alloc (h : Heap) (n : ℕ) (f : ℕ → Num) : Heap :=
  ⟨fun r => if r = h.next then n else h.len r, fun r => if r = h.next then f else h.cells r, h.next + 1⟩
/-- `x[i]=v` -/
def write (h : Heap) (r i : ℕ) (v : Num) : Heap :=
  ⟨h.len, fun r' => if r' = r then upd (h.cells r) i v else h.cells r', h.next⟩
/-- the contents of an array -/
def read (h : Heap) (r : ℕ) : List Num := arr (h.len r) (h.cells r)
end Heap

/-- references of the arrays of the loop of the discrete solver -/
structure LoopRefs where
  b : ℕ
  S : ℕ
  Sbis : ℕ
  Ctrot : ℕ
  Ctrot_loc : ℕ
  Cti : ℕ
  Cteff : ℕ
  gamma_t_bar : ℕ

/-- First block of a pass.  Models wiz/Solver.py:215-224. -/
def passFirst (n k_r ap C lambda_R : ℕ) (L : LoopRefs) (i : ℕ) (h : Heap) : Heap :=
  if i = n - 1 then
    let h := h.write L.b i 1
    let h := h.write L.S i (1 - h.cells C i)
    let h := h.write L.Sbis i (1 - h.cells C i)
    let h := h.write L.Ctrot i 0
    h.write L.Ctrot_loc i 0
  else
    let h := h.write L.b i (1 + sumFrom n (h.cells L.gamma_t_bar) (i+1))
    let h := h.write L.S i ((h.cells L.b i)^2 - (h.cells k_r i - h.cells k_r (i+1)) * (1 + h.cells ap i))
    h.write L.Ctrot_loc i ((h.cells k_r (i+1) / 2)^2 * (1 / (h.cells lambda_R i)^2 - 1 / (h.cells lambda_R (i+1))^2))

/-- Thrust block of a pass.  Models wiz/Solver.py:225-232. -/
def passThrust (n k_r lambda_R : ℕ) (L : LoopRefs) (bSwirl : Bool) (i : ℕ) (h : Heap) : Heap :=
  let h :=
    if ¬ bSwirl then
      let h := h.write L.Ctrot i 0
      h.write L.Cti i (h.cells k_r i)
    else
      let h := h.write L.Ctrot i (sumFrom n (h.cells L.Ctrot_loc) (i+1))
      h.write L.Cti i (h.cells k_r i * (1 + h.cells k_r i / (4 * (h.cells lambda_R i)^2)))
  let h := h.write L.Cteff i (h.cells L.Cti i - h.cells L.Ctrot i)
  h.write L.Sbis i (1 - h.cells L.Cteff i)

/-- Intensity block of a pass.  Models wiz/Solver.py:233-241. -/
def passGamma (L : LoopRefs) (bSwirl bHigh : Bool) (i : ℕ) (h : Heap) : Heap :=
  let h :=
    if bSwirl then h.write L.gamma_t_bar i (- h.cells L.b i + Num.sqrt (h.cells L.Sbis i))
    else h.write L.gamma_t_bar i (- h.cells L.b i + Num.sqrt (h.cells L.S i))
  if bHigh then
    (if ctcN < h.cells L.Cteff i then
      h.write L.gamma_t_bar i (- h.cells L.b i + (1 - 2 * ((h.cells L.Cteff i - 4 * acN^2) / (4 * (1 - 2 * acN)))))
     else h)
  else h

/-- One pass of the loop, assignment by assignment.  Models wiz/Solver.py:214-241. -/
def discrPassHeap (n k_r ap C lambda_R : ℕ) (L : LoopRefs) (bSwirl bHigh : Bool) (h : Heap) (i : ℕ) : Heap :=
  passGamma L bSwirl bHigh i (passThrust n k_r lambda_R L bSwirl i (passFirst n k_r ap C lambda_R L i h))

/-- references of the results of the discrete solver -/
structure DiscrRefs where
  gamma_t : ℕ
  gamma_l : Option ℕ
  Gamma_r : Option Num
  a : ℕ
  a_prime : ℕ
  Gamma_cp : ℕ
  r_cp : ℕ
  h : ℕ

/-- The arrays `Gamma_cp*nB`, `k_r`, `ap_cyl_conv`, `C`, `lambda_R`: new arrays with references
`h.next … h.next+4`.  Models wiz/Solver.py:178-180, 193-201, 211-212. -/
def allocInputs (n : ℕ) (h : Heap) (gcp rcyl : ℕ) (U0 Omega nB : Num) (bTanInd_k : Bool) : Heap :=
  let m := h.next
  let h := h.alloc n (fun i => h.cells gcp i * nB)
  let h := h.alloc n (fun i => h.cells m i * Omega / (.fin Real.pi * U0^2))
  let h := h.alloc n (fun i => if bTanInd_k then apCylConv n (h.cells m) (h.cells rcyl) Omega i else 0 * h.cells m i)
  let h := h.alloc n (fun i => h.cells m i * Omega / (.fin Real.pi * U0^2) * (1 + h.cells (m+2) i))
  h.alloc n (fun i => Omega * h.cells rcyl i / U0)

/-- The eight zero arrays `b,S,Sbis,Ctrot,Ctrot_loc,Cti,Cteff,gamma_t_bar`, with references
`h.next … h.next+7`.  Models wiz/Solver.py:202-209. -/
def allocLoop (n : ℕ) (h : Heap) : Heap :=
  let z : ℕ → Num := fun _ => 0
  (((((((h.alloc n z).alloc n z).alloc n z).alloc n z).alloc n z).alloc n z).alloc n z).alloc n z

/-- references of the loop arrays when they start at `m` -/
def loopRefs (m : ℕ) : LoopRefs := ⟨m, m+1, m+2, m+3, m+4, m+5, m+6, m+7⟩

/-- The result arrays `h`, `a`, `a_prime`, `gamma_t` (references `h.next … h.next+3`) and, with
swirl, `gamma_l` (reference `h.next+4`), where the inputs start at `m`.
Models wiz/Solver.py:242-281. -/
def allocOutputs (n : ℕ) (h : Heap) (m rcp : ℕ) (U0 Omega : Num) (bSwirl : Bool) : Heap :=
  let q := h.next
  let L := loopRefs (m+5)
  let h := h.alloc n (fun i => 2 * .fin Real.pi * (U0 * (h.cells L.b i + h.cells L.gamma_t_bar i / 2)) / (Omega * (1 + h.cells (m+2) i)))
  let h := h.alloc n (idx (((cumsum ((arr n fun i => h.cells L.gamma_t_bar i / 2).reverse)).map fun x => -x).reverse))
  let h := h.alloc n (fun i => if bSwirl then h.cells m i / (4 * .fin Real.pi * Omega * (h.cells rcp i)^2) else h.cells (q+1) i * 0)
  let h := h.alloc n (fun i => h.cells L.gamma_t_bar i * U0)
  if bSwirl then
    h.alloc n (fun i => (h.cells m i - (if i = n - 1 then 0 else h.cells m (i+1))) / (2 * .fin Real.pi * h.cells rcp i))
  else h

/-- `WakeVorticityFromCirculation_Discr` on the heap, after the choice of `r_cyl` (`rcp`, `gcp`,
`rcyl` are references of float arrays).  Models wiz/Solver.py:171-283. -/
def discrHeapCyl (h : Heap) (rcp gcp rcyl : ℕ) (U0 Omega nB : Num) (bSwirl bTanInd_k bHigh : Bool) :
    Except String DiscrRefs × Heap :=
  let n := h.len rcp
  if n = 0 ∨ h.len gcp ≠ n ∨ h.len rcyl ≠ n then (.error "ValueError", h)
  else if amax (h.cells rcyl 0) (h.read rcyl).tail < amax (h.cells rcp 0) (h.read rcp).tail then (.error "NameError: warnings", h)
  else if Num.Eqv (h.cells rcyl 0) 0 then (.error "First cylinder at 0, impossible", h)
  else
    let m := h.next
    let h1 := allocInputs n h gcp rcyl U0 Omega nB bTanInd_k
    let h2 := allocLoop n h1
    let h3 := (List.range n).reverse.foldl (discrPassHeap n (m+1) (m+2) (m+3) (m+4) (loopRefs (m+5)) bSwirl bHigh) h2
    let h4 := allocOutputs n h3 m rcp U0 Omega bSwirl
    (.ok ⟨m+16, if bSwirl then some (m+17) else none, if bSwirl then some (- h4.cells m 0) else none,
      m+14, m+15, m, rcp, m+13⟩, h4)

/-- `WakeVorticityFromCirculation_Discr` on the heap.  Models wiz/Solver.py:154-283. -/
def discrHeap (h : Heap) (rcp gcp : ℕ) (R U0 Omega nB : Num) (bSwirl bTanInd_k bHigh : Bool) (rcyl? : Option ℕ) :
    Except String DiscrRefs × Heap :=
  match rcyl? with
  | some rcyl => discrHeapCyl h rcp gcp rcyl U0 Omega nB bSwirl bTanInd_k bHigh
  | none => discrHeapCyl (h.alloc (h.len rcp) (idx (defaultRcyl (h.read rcp) R))) rcp gcp h.next U0 Omega nB bSwirl bTanInd_k bHigh

/-- `CirculationFromPrescribedCt` on the heap: without swirl the caller's array itself is returned.
Models wiz/Solver.py:48-62. -/
def circulationHeap (minimize : (ℝ → Num) → ℝ) (h : Heap) (rbar ct : ℕ) (Lambda : Num) (bSwirl : Bool) : ℕ × Heap :=
  if bSwirl then
    (h.next, h.alloc (h.len rbar) (idx (circulationFromPrescribedCt minimize (h.read rbar) (h.read ct) Lambda true)))
  else (ct, h)

/-- `WakeVorticityFromCt` on the heap.  Models wiz/Solver.py:291-299. -/
def fromCtHeap (minimize : (ℝ → Num) → ℝ) (h : Heap) (r ct : ℕ) (R U0 Omega : Num) : Except String DiscrRefs × Heap :=
  let Omega := capOmega Omega
  let Lambda := Omega * R / U0
  let bSwirl : Bool := decide (Lambda < 20)
  let rbar := h.next
  let h := h.alloc (h.len r) (fun i => h.cells r i / R)
  let p := circulationHeap minimize h rbar ct Lambda bSwirl
  let Gamma := p.2.next
  let h := p.2.alloc (p.2.len p.1) (fun i => p.2.cells p.1 i * .fin Real.pi * U0^2 / Omega)
  discrHeap h r Gamma R U0 Omega 1 bSwirl true true none

/-- `WakeVorticityFromGamma` on the heap.  Models wiz/Solver.py:301-307. -/
def fromGammaHeap (h : Heap) (r gamma : ℕ) (R U0 Omega : Num) : Except String DiscrRefs × Heap :=
  let Omega := capOmega Omega
  let Lambda := Omega * R / U0
  let bSwirl : Bool := decide (Lambda < 20)
  discrHeap h r gamma R U0 Omega 1 bSwirl true true none

/-- references of the results of `InductionsFromCirculation_VC_Cont` -/
structure IndRefs where
  a : ℕ
  a_prime : ℕ
  Ct_KJ : ℕ
  Ct_eff : ℕ
  Ct_rot : ℕ

/-- `InductionsFromCirculation_VC_Cont` on the heap: `lambda_r[0]` is overwritten in the array it is
given.  Models wiz/Solver.py:65-116 (the arrays created on the way are allocated with their final
values). -/
def inductionsHeap (h : Heap) (vr_bar lambda_r k : ℕ) (bSwirl bHigh : Bool) : Except String IndRefs × Heap :=
  if h.len lambda_r = 0 then (.error "IndexError", h)
  else if Num.Eqv (h.cells lambda_r 0) 0 ∧ h.len lambda_r < 2 then (.error "IndexError", h)
  else
    let h := if Num.Eqv (h.cells lambda_r 0) 0 then h.write lambda_r 0 (h.cells lambda_r 1 * .fin 0.01) else h
    let n := h.len k
    let c := inductionsCont (h.read vr_bar) (h.read lambda_r) (h.read k) bSwirl bHigh
    (.ok ⟨h.next, h.next+1, h.next+2, h.next+3, h.next+4⟩,
      ((((h.alloc n (idx c.a)).alloc n (idx c.a_prime)).alloc n (idx c.Ct_KJ)).alloc n (idx c.Ct_eff)).alloc n (idx c.Ct_rot))

/-- references of the results of the continuous solver -/
structure ContRefs where
  gamma_t : ℕ
  gamma_l : Option ℕ
  Gamma_r : Option Num
  ind : IndRefs
  Vz : ℕ
  h : ℕ
  r_cp : ℕ
  Gamma_cp : ℕ

/-- The arrays `k`, `vr_bar`, `lambda_r`, references `h.next … h.next+2`.
Models wiz/Solver.py:128-130. -/
def allocContInputs (n : ℕ) (h : Heap) (rcp gcp : ℕ) (R U0 Omega : Num) : Heap :=
  ((h.alloc (h.len gcp) (fun i => Omega * h.cells gcp i / (.fin Real.pi * U0^2))).alloc n (fun i => h.cells rcp i / R)).alloc n
    (fun i => Omega * h.cells rcp i / U0)

/-- The arrays `Vz`, `h`, `gamma_t`, `gamma_l`, references `h.next … h.next+3`.
Models wiz/Solver.py:134-146 (without swirl `gamma_l` is a scalar; an unused array here). -/
def allocContOutputs (n : ℕ) (h : Heap) (rcp gcp : ℕ) (ind : IndRefs) (U0 Omega : Num) : Heap :=
  let q := h.next
  let h := h.alloc n (fun i => U0 * (1 - 2 * h.cells ind.a i))
  let h := h.alloc n (fun i => h.cells q i * 2 * .fin Real.pi / (Omega * (1 + 2 * h.cells ind.a_prime i)))
  let h := h.alloc n (fun i => - (h.cells gcp i - (if i = n - 1 then 0 else h.cells gcp (i+1))) / h.cells (q+1) i)
  h.alloc n (fun i => (h.cells gcp i - (if i = n - 1 then 0 else h.cells gcp (i+1))) / (2 * .fin Real.pi * h.cells rcp i))

/-- `WakeVorticityFromCirculation_Cont` on the heap: `r_cp[0]` is overwritten in the caller's array.
Models wiz/Solver.py:118-149. -/
def contHeap (h : Heap) (rcp gcp : ℕ) (R U0 Omega : Num) (bSwirl bHigh : Bool) : Except String ContRefs × Heap :=
  if h.len rcp = 0 then (.error "IndexError", h)
  else if Num.Eqv (h.cells rcp 0) 0 ∧ h.len rcp < 2 then (.error "IndexError", h)
  else
    let h1 := if Num.Eqv (h.cells rcp 0) 0 then h.write rcp 0 (h.cells rcp 1 * .fin 0.5) else h
    let n := h1.len rcp
    let h2 := allocContInputs n h1 rcp gcp R U0 Omega
    let p := inductionsHeap h2 (h1.next+1) (h1.next+2) h1.next bSwirl bHigh
    match p.1 with
    | .error e => (.error e, p.2)
    | .ok ind =>
      let q := p.2.next
      (.ok ⟨q+2, if bSwirl then some (q+3) else none, if bSwirl then some (- p.2.cells gcp 0) else none, ind, q, q+1, rcp, gcp⟩,
        allocContOutputs n p.2 rcp gcp ind U0 Omega)

end
end Wiz
