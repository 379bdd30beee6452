import Verif.Spec.Float
/-
Model of `symbolic_regression/src/loss_functions.rs`.  Scalars are `Fl K`, every arithmetic operation is rounded
by `R` (Spec/Float.lean).  `none` stands for a panic (vectors of different lengths).
-/
namespace SR
variable {K : Type} [Field K] [LinearOrder K]

/-- Transcendental functions used by the losses (uninterpreted). -/
structure LossLib (K : Type) where
  cosh : Fl K → Fl K
  ln : Fl K → Fl K
  tanh : Fl K → Fl K
  powf : Fl K → Fl K → Fl K
  sqrt : Fl K → Fl K

/-- The pointwise losses with their parameters (already converted to `T`, loss_functions.rs:181-336). -/
inductive PointLoss (K : Type) where
  | squared | abs | huber (delta : Fl K) | logCosh | lp (p : Fl K) | quantile (tau : Fl K)
  | epsIns (eps : Fl K)

variable (R : Rounding K) (lib : LossLib K)

/-- `point_loss`, loss_functions.rs:183-186, 199-201, 221-230, 248-251, 265-268, 289-296, 317-320. -/
def PointLoss.loss : PointLoss K → Fl K → Fl K → Fl K
  | .squared, a, b => let r := R.sub a b; R.mul r r
  | .abs, a, b => (R.sub a b).abs
  | .huber delta, a, b =>
    let r := R.sub a b
    let half := R.rnd (1 / 2)
    if r.abs.le delta then R.mul (R.mul half r) r
    else R.mul delta (R.sub r.abs (R.mul half delta))
  | .logCosh, a, b => lib.ln (lib.cosh (R.sub a b))
  | .lp p, a, b => lib.powf (R.sub a b).abs p
  | .quantile tau, a, b =>
    let u := R.sub b a
    if Fl.le (.fin 0) u then R.mul tau u else R.mul (R.sub tau (.fin 1)) u
  | .epsIns eps, a, b =>
    let r := R.sub (R.sub a b).abs eps
    if Fl.lt (.fin 0) r then r else .fin 0

/-- The sign used by the derivatives: `1`, `-1` or `0`. -/
def signOr (r pos neg : Fl K) : Fl K :=
  if Fl.lt (.fin 0) r then pos else if r.lt (.fin 0) then neg else .fin 0

/-- `point_dloss_dyhat`, loss_functions.rs:188-190, 203-212, 232-244, 253-256, 270-279, 298-307, 322-335. -/
def PointLoss.dloss : PointLoss K → Fl K → Fl K → Fl K
  | .squared, a, b => R.mul (R.rnd 2) (R.sub a b)
  | .abs, a, b => signOr (R.sub a b) (.fin 1) (.fin (-1))
  | .huber delta, a, b =>
    let r := R.sub a b
    if r.abs.le delta then r else signOr r delta delta.neg
  | .logCosh, a, b => lib.tanh (R.sub a b)
  | .lp p, a, b =>
    let r := R.sub a b
    if r.feq (.fin 0) then .fin 0
    else R.mul (R.mul p (lib.powf r.abs (R.sub p (.fin 1))))
      (if Fl.lt (.fin 0) r then .fin 1 else .fin (-1))
  | .quantile tau, a, b => signOr (R.sub b a) tau.neg (R.sub (.fin 1) tau)
  | .epsIns eps, a, b =>
    let r := R.sub a b
    if eps.lt r.abs then signOr r (.fin 1) (.fin (-1)) else .fin 0

/-- `MeanLoss::loss`, loss_functions.rs:119-148. -/
def meanLoss (pl : Fl K → Fl K → Fl K) (yhat y : List (Fl K)) : Option (List (Fl K)) → Option (Fl K)
  | none =>
    if yhat.length ≠ y.length then none
    else if y.isEmpty then some (.fin 0)
    else some (R.div (R.sum (List.zipWith pl yhat y)) (R.ofNat y.length))
  | some w =>
    if yhat.length ≠ y.length ∨ w.length ≠ y.length then none
    else if (R.sum w).feq (.fin 0) then some (.fin 0)
    else some (R.div (R.sum (List.zipWith R.mul w (List.zipWith pl yhat y))) (R.sum w))

/-- `MeanLoss::dloss_dyhat`, loss_functions.rs:150-177 (the output buffer has the length of `y`). -/
def meanDloss (pd : Fl K → Fl K → Fl K) (yhat y : List (Fl K)) : Option (List (Fl K)) → Option (List (Fl K))
  | none =>
    if yhat.length ≠ y.length then none
    else if y.isEmpty then some []
    else
      let inv := R.div (.fin 1) (R.ofNat y.length)
      some ((List.zipWith pd yhat y).map fun d => R.mul inv d)
  | some w =>
    if yhat.length ≠ y.length ∨ w.length ≠ y.length then none
    else if (R.sum w).feq (.fin 0) then some (y.map fun _ => .fin 0)
    else
      let inv := R.div (.fin 1) (R.sum w)
      some (List.zipWith (fun wi d => R.mul (R.mul wi inv) d) w (List.zipWith pd yhat y))

/-- The configured loss: a mean of a pointwise loss or the root mean square, loss_functions.rs:67-108. -/
inductive LossKind (K : Type) where
  | mean (l : PointLoss K)
  | rmse

/-- `LossFn::loss` of the configured loss; `Rmse`: loss_functions.rs:342-344. -/
def LossKind.loss : LossKind K → List (Fl K) → List (Fl K) → Option (List (Fl K)) → Option (Fl K)
  | .mean l, yhat, y, w => meanLoss R (l.loss R lib) yhat y w
  | .rmse, yhat, y, w => (meanLoss R (PointLoss.squared.loss R lib) yhat y w).map lib.sqrt

/-- `LossFn::dloss_dyhat` of the configured loss; `Rmse`: loss_functions.rs:346-378. -/
def LossKind.dloss : LossKind K → List (Fl K) → List (Fl K) → Option (List (Fl K)) → Option (List (Fl K))
  | .mean l, yhat, y, w => meanDloss R (l.dloss R lib) yhat y w
  | .rmse, yhat, y, w => do
    let m ← meanLoss R (PointLoss.squared.loss R lib) yhat y w
    let r := lib.sqrt m
    if r.feq (.fin 0) || !r.isFinite then some (y.map fun _ => .fin 0)
    else match w with
      | none =>
        let scale := R.div (R.div (.fin 1) (R.ofNat y.length)) r
        some (List.zipWith (fun a b => R.mul scale (R.sub a b)) yhat y)
      | some w =>
        if (R.sum w).feq (.fin 0) then some (y.map fun _ => .fin 0)
        else
          let scale := R.div (R.div (.fin 1) (R.sum w)) r
          some (List.zipWith (fun wi d => R.mul (R.mul scale wi) d) w (List.zipWith R.sub yhat y))

/-- The cost floor `0.01`, loss_functions.rs:50. -/
def costFloor : Fl K := R.rnd (1 / 100)

/-- The denominator of `loss_to_cost`, loss_functions.rs:52-59. -/
def costDenom (useBaseline : Bool) (baseline : Option (Fl K)) : Fl K :=
  if useBaseline then
    match baseline with
    | some b => if b.isFinite && (costFloor R).le b then b else costFloor R
    | none => costFloor R
  else costFloor R

/-- `loss_to_cost`, loss_functions.rs:43-63; `parsimony` already converted to `T` (the conversions cannot fail for
`f32`/`f64`). -/
def lossToCost (loss : Fl K) (complexity : Nat) (parsimony : Fl K) (useBaseline : Bool)
    (baseline : Option (Fl K)) : Fl K :=
  R.add (R.div loss (costDenom R useBaseline baseline)) (R.mul parsimony (R.ofNat complexity))

/-- A known string of `LossKind::parse` after trimming and lowercasing, loss_functions.rs:80-94, together with
`make_loss` (:97-108) and the default parameters. -/
def parseLossName (name : String) : Option (LossKind K) :=
  match name with
  | "mse" => some (.mean .squared)
  | "mae" => some (.mean .abs)
  | "rmse" => some .rmse
  | "huber" => some (.mean (.huber (R.rnd 1)))
  | "logcosh" => some (.mean .logCosh)
  | "lp" => some (.mean (.lp (R.rnd 2)))
  | "quantile" => some (.mean (.quantile (R.rnd (1 / 2))))
  | "epsilon-insensitive" => some (.mean (.epsIns (R.rnd (1 / 10))))
  | "epsilon_insensitive" => some (.mean (.epsIns (R.rnd (1 / 10))))
  | "eps-insensitive" => some (.mean (.epsIns (R.rnd (1 / 10))))
  | "eps_insensitive" => some (.mean (.epsIns (R.rnd (1 / 10))))
  | _ => none

end SR
