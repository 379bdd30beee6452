import Verif.Spec.Float
/-
Model of `symbolic_regression/src/optim.rs`: the line search, BFGS and the one dimensional Newton method, on `f64`
values (`Fl K`, every operation rounded by `R`).  The objective is a pure partial function (the code's objective
overwrites all constants before each call, constant_optimization.rs:171-185); the budget counter `f_calls` is
threaded through.  `fail` is a `None` propagated by `?`; `panic` stands for a failed length check of `zip_eq`.
-/
namespace SR
variable {K : Type} [Field K] [LinearOrder K]

/-- The outcome of a computation: a value, `None`, or a panic. -/
inductive Res (α : Type) where
  | ok (a : α) | fail | panic
deriving DecidableEq

/-- Computations threading the number of objective calls (`EvalBudget`, optim.rs:45-48). -/
def OptM (α : Type) := Nat → Res α × Nat

namespace OptM
variable {α β : Type}
protected def pure (a : α) : OptM α := fun c => (.ok a, c)
protected def bind (m : OptM α) (f : α → OptM β) : OptM β := fun c =>
  match m c with
  | (.ok a, c') => f a c'
  | (.fail, c') => (.fail, c')
  | (.panic, c') => (.panic, c')
instance : Monad OptM := { pure := OptM.pure, bind := OptM.bind }
/-- `return None` / `?` on `None`. -/
def fail : OptM α := fun c => (.fail, c)
/-- A panic. -/
def panic : OptM α := fun c => (.panic, c)
/-- The `?` operator. -/
def ofOption : Option α → OptM α
  | some a => OptM.pure a
  | none => fail
end OptM

/-- `zip_eq` followed by a map, dynamic_expressions/src/utils: panics on unequal lengths. -/
def zipEqM {α β γ : Type} (f : α → β → γ) (a : List α) (b : List β) : OptM (List γ) :=
  if a.length = b.length then pure (List.zipWith f a b) else OptM.panic

/-- `Objective`, optim.rs:57-60: the value, or the value and the gradient, at a point. -/
structure Objective (K : Type) where
  fOnly : List (Fl K) → Option (Fl K)
  fg : List (Fl K) → Option (Fl K × List (Fl K))

/-- `OptimOptions`, optim.rs:5-10. -/
structure OptimOptions (K : Type) where
  iterations : Nat
  fCallsLimit : Nat
  gAbstol : Fl K

/-- `BackTracking`, optim.rs:22-30; `finiteMax` is the constant of :165 and `sqrt` the library function. -/
structure BackTracking (K : Type) where
  c1 : Fl K
  rhoHi : Fl K
  rhoLo : Fl K
  iterations : Nat
  order : Nat
  maxstep : Fl K
  finiteMax : Nat
  sqrt : Fl K → Fl K

/-- `OptimResult`, optim.rs:50-55. -/
structure OptimResult (K : Type) where
  minimizer : List (Fl K)
  minimum : Fl K
  fCalls : Nat
deriving DecidableEq

variable (R : Rounding K)

/-- `inf_norm`, optim.rs:62-64. -/
def infNorm (v : List (Fl K)) : Fl K := v.foldl (fun a b => a.max b.abs) (.fin 0)

/-- `dot`, optim.rs:66-68. -/
def dot (a b : List (Fl K)) : OptM (Fl K) := do
  let l ← zipEqM R.mul a b
  pure (R.sum l)

/-- `axpy_into`, optim.rs:70-74. -/
def axpy (x : List (Fl K)) (alpha : Fl K) (s : List (Fl K)) : OptM (List (Fl K)) :=
  zipEqM (fun xi si => R.add xi (R.mul alpha si)) x s

/-- Entry `i * n + j` of a flat matrix. -/
def matAt (a : List (Fl K)) (n i j : Nat) : Fl K := (a[i * n + j]?).getD .nan

/-- `matvec`, optim.rs:76-90 (`a` is flat, row major, `n * n` long). -/
def matvec (a x : List (Fl K)) : List (Fl K) :=
  let n := x.length
  (List.range n).map fun i => R.sum ((List.range n).map fun j => R.mul (matAt a n i j) ((x[j]?).getD .nan))

/-- `quadratic_step`, optim.rs:92-99. -/
def quadraticStep (alpha phi phi0 dphi0 : Fl K) : Option (Fl K) :=
  let denom := R.mul (R.rnd 2) (R.sub (R.sub phi phi0) (R.mul dphi0 alpha))
  if !denom.isFinite || denom.feq (.fin 0) then none
  else
    let out := R.div (R.mul (R.mul dphi0 alpha) alpha).neg denom
    if out.isFinite then some out else none

/-- `cubic_step`, optim.rs:101-127. -/
def cubicStep (ls : BackTracking K) (alpha1 phi1 alpha2 phi2 phi0 dphi0 : Fl K) : Option (Fl K) :=
  let d1 := R.sub (R.sub phi1 phi0) (R.mul dphi0 alpha1)
  let d2 := R.sub (R.sub phi2 phi0) (R.mul dphi0 alpha2)
  let denom := R.mul (R.mul (R.mul (R.mul alpha1 alpha1) alpha2) alpha2) (R.sub alpha2 alpha1)
  if !denom.isFinite || denom.feq (.fin 0) then none
  else
    let a := R.div (R.sub (R.mul (R.mul alpha1 alpha1) d2) (R.mul (R.mul alpha2 alpha2) d1)) denom
    let b := R.div (R.add (R.mul (R.mul (R.mul alpha1.neg alpha1) alpha1) d2)
      (R.mul (R.mul (R.mul alpha2 alpha2) alpha2) d1)) denom
    if !a.isFinite || !b.isFinite then none
    else if a.abs.le (R.rnd (1 / 2 ^ 52)) then
      let denomB := R.mul (R.rnd 2) b
      if denomB.feq (.fin 0) || !denomB.isFinite then none
      else
        let out := R.div dphi0.neg denomB
        if out.isFinite then some out else none
    else
      let disc := (R.sub (R.mul b b) (R.mul (R.mul (R.rnd 3) a) dphi0)).max (.fin 0)
      let out := R.div (R.add b.neg (ls.sqrt disc)) (R.mul (R.rnd 3) a)
      if out.isFinite then some out else none

/-- A trial value that counts: `Some(v)` with `v` finite, optim.rs:173. -/
def finiteSome (ok : Option (Fl K)) : Bool :=
  match ok with
  | some v => v.isFinite
  | none => false

/-- The halving loop, optim.rs:166-187: returns the step, the value and the point. -/
def lsHalve (phiAt : List (Fl K) → OptM (Option (Fl K))) (x s : List (Fl K)) :
    Nat → Fl K → OptM (Fl K × Fl K × List (Fl K))
  | 0, _ => OptM.fail
  | n + 1, a => do
    let xn ← axpy R x a s
    let ok ← phiAt xn
    if finiteSome ok then
      let v ← OptM.ofOption ok
      pure (a, v, xn)
    else
      let a' := R.mul a (R.rnd (1 / 2))
      if a'.le (.fin 0) then OptM.fail else lsHalve phiAt x s n a'

/-- The right hand side of the sufficient decrease test, optim.rs:189. -/
def armijoRhs (c1 phi0 dphi0 a : Fl K) : Fl K := R.add phi0 (R.mul (R.mul c1 a) dphi0)

/-- The interpolated step, optim.rs:196-203. -/
def trialStep (ls : BackTracking K) (phi0 dphi0 alpha phi : Fl K) (prev : Option (Fl K × Fl K)) : Fl K :=
  let q := quadraticStep R alpha phi phi0 dphi0
  let t := if ls.order < 3 then q
    else match prev with
      | some (alphaPrev, phiPrev) => cubicStep R ls alpha phi alphaPrev phiPrev phi0 dphi0
      | none => q
  t.getD (R.mul alpha (R.rnd (1 / 2)))

/-- Clamping to `[rho_lo * alpha, rho_hi * alpha]`, optim.rs:205-213. -/
def clampStep (ls : BackTracking K) (alpha t : Fl K) : Fl K :=
  let lo := R.mul ls.rhoLo alpha
  let hi := R.mul ls.rhoHi alpha
  let t1 := if hi.lt t then hi else t
  if t1.lt lo then lo else t1

/-- The backtracking loop, optim.rs:191-230 (`prev` is `None` exactly at the first pass). -/
def lsLoop (ls : BackTracking K) (phiAt : List (Fl K) → OptM (Option (Fl K))) (x s : List (Fl K)) (phi0 dphi0 : Fl K) :
    Nat → Fl K → Fl K → List (Fl K) → Option (Fl K × Fl K) → OptM (Fl K × Fl K × List (Fl K))
  | 0, _, _, _, _ => OptM.fail
  | n + 1, alpha, phi, xn, prev =>
    if phi.le (armijoRhs R ls.c1 phi0 dphi0 alpha) then pure (alpha, phi, xn)
    else
      let alpha' := clampStep R ls alpha (trialStep R ls phi0 dphi0 alpha phi prev)
      if !alpha'.isFinite || alpha'.le (.fin 0) then OptM.fail
      else do
        let xn' ← axpy R x alpha' s
        let ok ← phiAt xn'
        let phi' ← OptM.ofOption ok
        if !phi'.isFinite then OptM.fail
        else lsLoop ls phiAt x s phi0 dphi0 n alpha' phi' xn' (some (alpha, phi))

/-- The first step after the `maxstep` cap, optim.rs:148-159. -/
def cappedStep (ls : BackTracking K) (alpha0 : Fl K) (s : List (Fl K)) : Fl K :=
  if ls.maxstep.isFinite && Fl.lt (.fin 0) (infNorm s) then alpha0.min (R.div ls.maxstep (infNorm s)) else alpha0

/-- `backtracking_linesearch`, optim.rs:138-231: the step, the value there and the new point. -/
def backtrackingLinesearch (ls : BackTracking K) (x s : List (Fl K)) (alpha0 phi0 dphi0 : Fl K)
    (phiAt : List (Fl K) → OptM (Option (Fl K))) : OptM (Fl K × Fl K × List (Fl K)) :=
  if !alpha0.isFinite || alpha0.le (.fin 0) then OptM.fail
  else do
    let (alpha, phi, xn) ← lsHalve R phiAt x s ls.finiteMax (cappedStep R ls alpha0 s)
    if !phi.isFinite then OptM.fail
    else lsLoop R ls phiAt x s phi0 dphi0 ls.iterations alpha phi xn none

/-- A call of `Objective::fg` counting itself. -/
def callFg (obj : Objective K) (x : List (Fl K)) : OptM (Fl K × List (Fl K)) := fun c =>
  match obj.fg x with
  | some r => (.ok r, c + 1)
  | none => (.fail, c + 1)

/-- Is the call budget used up? optim.rs:264, 294, 383, 426. -/
def exhausted (opts : OptimOptions K) (calls : Nat) : Bool :=
  opts.fCallsLimit != 0 && decide (opts.fCallsLimit ≤ calls)

/-- The line search objective `phi_at`, optim.rs:293-299, 425-431. -/
def phiAt (obj : Objective K) (opts : OptimOptions K) (x : List (Fl K)) : OptM (Option (Fl K)) := fun c =>
  if exhausted opts c then (.ok none, c)
  else (.ok ((obj.fOnly x).filter Fl.isFinite), c + 1)

/-- The identity matrix, optim.rs:253-256. -/
def identity (n : Nat) : List (Fl K) :=
  (List.range (n * n)).map fun k => if k / n = k % n then .fin 1 else .fin 0

/-- The inverse Hessian update, optim.rs:346-350. -/
def hessUpdate (n : Nat) (h dx u : List (Fl K)) (c1 c2 : Fl K) : List (Fl K) :=
  (List.range (n * n)).map fun k =>
    let i := k / n
    let j := k % n
    let dxi := (dx[i]?).getD .nan
    let dxj := (dx[j]?).getD .nan
    let ui := (u[i]?).getD .nan
    let uj := (u[j]?).getD .nan
    R.add (matAt h n i j)
      (R.sub (R.mul (R.mul c1 dxi) dxj) (R.mul c2 (R.add (R.mul ui dxj) (R.mul dxi uj))))

/-- The symmetrisation, optim.rs:351-358. -/
def symmetrize (n : Nat) (h : List (Fl K)) : List (Fl K) :=
  (List.range (n * n)).map fun k =>
    let i := k / n
    let j := k % n
    if i = j then matAt h n i j
    else R.mul (R.rnd (1 / 2)) (R.add (matAt h n (min i j) (max i j)) (matAt h n (max i j) (min i j)))

/-- The BFGS update of the inverse Hessian, optim.rs:323-360. -/
def bfgsUpdate (n : Nat) (h dx dg : List (Fl K)) : OptM (List (Fl K)) := do
  let dxdg ← dot R dx dg
  if !(dxdg.isFinite && (R.rnd (1 / 10 ^ 12)).lt dxdg) then pure (identity n)
  else if Fl.lt (.fin 0) dxdg then
    let u := matvec R h dg
    let dgu ← dot R dg u
    if dgu.isFinite then
      let c1 := R.div (R.add dxdg dgu) (R.mul dxdg dxdg)
      let c2 := R.div (.fin 1) dxdg
      pure (symmetrize R n (hessUpdate R n h dx u c1 c2))
    else pure h
  else pure h

/-- Is a slope unusable (`!dphi0.is_finite() || dphi0 >= 0.0`)? optim.rs:278, 288, 416, 420. -/
def badSlope (d : Fl K) : Bool := !d.isFinite || Fl.le (.fin 0) d

/-- The search direction, its slope and the (possibly reset) inverse Hessian, optim.rs:273-287. -/
def bfgsDirection (n : Nat) (h g : List (Fl K)) : OptM (List (Fl K) × Fl K × List (Fl K)) := do
  let s := (matvec R h g).map Fl.neg
  let d ← dot R g s
  if badSlope d then
    let s' := g.map Fl.neg
    let d' ← dot R g s'
    pure (s', d', identity n)
  else pure (s, d, h)

/-- The main loop of `bfgs_minimize`, optim.rs:263-361; returns the last point and value. -/
def bfgsLoop (obj : Objective K) (opts : OptimOptions K) (ls : BackTracking K) :
    Nat → List (Fl K) → Fl K → List (Fl K) → List (Fl K) → OptM (List (Fl K) × Fl K)
  | 0, x, fx, _, _ => pure (x, fx)
  | n + 1, x, fx, g, h => fun c =>
    if exhausted opts c then (.ok (x, fx), c)
    else if !(infNorm g).isFinite || (infNorm g).le opts.gAbstol then (.ok (x, fx), c)
    else (do
      let (s, d, h1) ← bfgsDirection R x.length h g
      if badSlope d then pure (x, fx)
      else do
        let (_, _, x') ← backtrackingLinesearch R ls x s (.fin 1) fx d (phiAt obj opts)
        let (fx', g') ← callFg obj x'
        if !fx'.isFinite then pure (x', fx')
        else do
          let dx ← zipEqM R.sub x' x
          let dg ← zipEqM R.sub g' g
          let h2 ← bfgsUpdate R x.length h1 dx dg
          bfgsLoop obj opts ls n x' fx' g' h2) c

/-- `bfgs_minimize`, optim.rs:233-368. -/
def bfgsMinimize (x0 : List (Fl K)) (obj : Objective K) (opts : OptimOptions K) (ls : BackTracking K) :
    OptM (OptimResult K) := do
  let (fx, g) ← callFg obj x0
  if !fx.isFinite then OptM.fail
  else do
    let (x, f) ← bfgsLoop R obj opts ls opts.iterations x0 fx g (identity x0.length)
    fun c => (.ok ⟨x, f, c⟩, c)

/-- The Newton step and its slope, optim.rs:408-419. -/
def newtonStep (g gPlus gMinus eps : Fl K) : Fl K × Fl K :=
  let tiny := R.rnd (1 / 10 ^ 12)
  let h := R.div (R.sub gPlus gMinus) (R.mul (R.rnd 2) eps)
  let hm := h.abs.max tiny
  let hm := if hm.isFinite then hm else tiny
  let s := R.div g.neg hm
  let d := R.mul g s
  if badSlope d then (g.neg, R.mul g g.neg) else (s, d)

/-- The first entry of the gradient buffer (`g_tmp[0]`). -/
def head1 (g : List (Fl K)) : Fl K := g.headD (.fin 0)

/-- The best point so far, optim.rs:392-395. -/
def betterOf (f x bestF bestX : Fl K) : Fl K × Fl K := if f.lt bestF then (f, x) else (bestF, bestX)

/-- The main loop of `newton_1d_minimize`, optim.rs:382-449; returns the best value and point. -/
def newtonLoop (obj : Objective K) (opts : OptimOptions K) (ls : BackTracking K) :
    Nat → Fl K → Fl K → Fl K → OptM (Fl K × Fl K)
  | 0, _, bestF, bestX => pure (bestF, bestX)
  | n + 1, x, bestF, bestX => fun c =>
    if exhausted opts c then (.ok (bestF, bestX), c)
    else (do
      let (f, gv) ← callFg obj [x]
      let g := head1 gv
      if !f.isFinite || !g.isFinite then OptM.fail
      else
        let (bf, bx) := betterOf f x bestF bestX
        if g.abs.le opts.gAbstol then pure (bf, bx)
        else do
          let eps := R.mul (ls.sqrt (R.rnd (1 / 2 ^ 52))) (R.add x.abs (.fin 1))
          let (_, gp) ← callFg obj [R.add x eps]
          let (_, gm) ← callFg obj [R.sub x eps]
          let (s, d) := newtonStep R g (head1 gp) (head1 gm) eps
          if badSlope d then pure (bf, bx)
          else do
            let (alpha, _, _) ← backtrackingLinesearch R ls [x] [s] (.fin 1) f d (phiAt obj opts)
            newtonLoop obj opts ls n (R.add x (R.mul alpha s)) bf bx) c

/-- `newton_1d_minimize`, optim.rs:370-456. -/
def newtonMinimize (x0 : Fl K) (obj : Objective K) (opts : OptimOptions K) (ls : BackTracking K) :
    OptM (OptimResult K) := do
  let (f, x) ← newtonLoop R obj opts ls opts.iterations x0 .pinf x0
  fun c => (.ok ⟨[x], f, c⟩, c)

end SR
