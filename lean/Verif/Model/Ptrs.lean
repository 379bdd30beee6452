import Verif.Model.Random
/-
Model of the acceptance test of `poisson_sample` for means of at least 30 (symbolic_regression/src/random.rs:40-74, 95-110).
The search model takes it as a parameter (`E.ptrs`).
-/
namespace SR
variable {K : Type} [Field K] [LinearOrder K] (R : Rounding K) (lib : Libm K)

/-- `log_factorial` from 256 on, random.rs:103-109: the Stirling series. -/
def stirlingSeries (k : Nat) : Fl K :=
  let ln2pi := R.rnd (18378770664093453 / 10000000000000000)
  let x := R.add (R.ofNat k) (.fin 1)
  let inv := R.div (.fin 1) x
  let inv2 := R.mul inv inv
  R.add (R.sub (R.add (R.add (R.sub (R.mul (R.sub x (R.rnd (1 / 2))) (lib.ln x)) x) (R.mul (R.rnd (1 / 2)) ln2pi))
    (R.div inv (R.rnd 12))) (R.div (R.mul inv2 inv) (R.rnd 360))) (R.div (R.mul (R.mul inv2 inv2) inv) (R.rnd 1260))

/-- `log_factorial`, random.rs:95-110. -/
def logFactorial (k : Nat) : Fl K :=
  if k < 2 then .fin 0
  else if k < 256 then R.sum ((List.range' 2 (k - 1)).map fun i => lib.ln (R.ofNat i))
  else stirlingSeries R lib k

/-- The constants of the sampler, random.rs:42-46: `b`, `a`, `inv_alpha`, `v_r`. -/
def ptrsB (mean : Fl K) : Fl K := R.add (R.rnd (931 / 1000)) (R.mul (R.rnd (253 / 100)) (lib.sqrt mean))
def ptrsA (mean : Fl K) : Fl K := R.add (R.rnd (-59 / 1000)) (R.mul (R.rnd (2483 / 100000)) (ptrsB R lib mean))
def ptrsInvAlpha (mean : Fl K) : Fl K :=
  R.add (R.rnd (11239 / 10000)) (R.div (R.rnd (11328 / 10000)) (R.sub (ptrsB R lib mean) (R.rnd (34 / 10))))
def ptrsVr (mean : Fl K) : Fl K :=
  R.sub (R.rnd (9277 / 10000)) (R.div (R.rnd (36224 / 10000)) (R.sub (ptrsB R lib mean) (R.rnd 2)))

/-- The tests on a candidate `k`, random.rs:62-73; `u` is the centred first draw, `us` its distance from the border. -/
def ptrsTest (mean us v : Fl K) (k : Nat) : Option Nat :=
  if (R.rnd (7 / 100)).le us && v.le (ptrsVr R lib mean) then some k
  else if us.lt (R.rnd (13 / 1000)) && us.lt v then none
  else if (lib.ln (R.div (R.mul v (ptrsInvAlpha R lib mean))
      (R.add (R.div (ptrsA R lib mean) (R.mul us us)) (ptrsB R lib mean)))).le
    (R.sub (R.add mean.neg (R.mul (R.ofNat k) (lib.ln mean))) (logFactorial R lib k)) then some k
  else none

/-- The body of the loop, random.rs:48-74: the value returned, or `none` for another round.  `lib.toNat` is the cast to
`i64`, kept when it is not negative. -/
def ptrsCandidate (mean u0 v : Fl K) : Option Nat :=
  let u := R.sub u0 (R.rnd (1 / 2))
  let us := R.sub (R.rnd (1 / 2)) u.abs
  if us.le (.fin 0) then none
  else (lib.toNat (lib.floor (R.add (R.add (R.mul (R.add (R.div (R.mul (R.rnd 2) (ptrsA R lib mean)) us)
    (ptrsB R lib mean)) u) mean) (R.rnd (43 / 100))))).bind (ptrsTest R lib mean us v)

end SR
