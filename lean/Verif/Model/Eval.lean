import Verif.Model.Compile
/-
Model of `dynamic_expressions/src/evaluate.rs` (values only; derivatives in `Model/Deriv.lean`).
Buffers are flat lists, as in the Rust code (`slot * n_rows + row`); a slice out of range is a panic
(`none`).  `out.iter_mut().zip_eq(..)` loops become `map`/`zipWith` (lengths are equal: debug assert).
-/
namespace SR

variable {T : Type}

/-- `EvalOptions`, evaluate.rs:11-14. -/
structure EvalOptions where
  checkFinite : Bool
  earlyExit : Bool
deriving DecidableEq, Repr

/-- `&xs[start..start + len]` -/
def slice? (xs : List T) (start len : Nat) : Option (List T) :=
  if start + len ≤ xs.length then some ((xs.drop start).take len) else none

/-- `SrcRef` / `ArgView`, dispatch.rs:6-9 and evaluate.rs:332-345. -/
inductive SrcRef (T : Type) where
  | slice (s : List T)
  | const (c : T)

/-- `ArgView::get`, evaluate.rs:349-354. -/
def SrcRef.get? : SrcRef T → Nat → Option T
  | .slice s, row => s[row]?
  | .const c, _ => some c

/-- `resolve_val_src`, evaluate.rs:83-112. -/
def resolveValSrc (src : Src) (xData : List T) (nRows : Nat) (consts : List T) (dstSlot : Nat)
    (before after : List T) : Option (SrcRef T) :=
  match src with
  | .var f => (slice? xData (f * nRows) nRows).map .slice
  | .const c => consts[c]?.map .const
  | .slot s =>
    if s < dstSlot then (slice? before (s * nRows) nRows).map .slice
    else if dstSlot < s then (slice? after ((s - dstSlot - 1) * nRows) nRows).map .slice
    else none

/-- `matches!(a, SrcRef::Const(_))` -/
def SrcRef.isConst : SrcRef T → Bool | .const _ => true | _ => false

/-- `eval_unary_loop`, evaluate.rs:488-497; `n` is `out.len()`. -/
def evalUnaryLoop (n : Nat) (x : SrcRef T) (f : T → T) : List T :=
  match x with
  | .slice xs => xs.map f
  | .const c => List.replicate n (f c)

/-- `eval_binary_loop`, evaluate.rs:500-524. -/
def evalBinaryLoop (n : Nat) (x y : SrcRef T) (f : T → T → T) : List T :=
  match x, y with
  | .slice xs, .slice ys => List.zipWith f xs ys
  | .slice xs, .const yc => xs.map fun xv => f xv yc
  | .const xc, .slice ys => ys.map fun yv => f xc yv
  | .const xc, .const yc => List.replicate n (f xc yc)

/-- Row loop for arity ≥ 3, evaluate.rs:557-568.  Result: outer `none` = index panic; inner `none` =
early return with `false` after filling with NaN (565-566); otherwise rows written and `complete`. -/
def naryLoop [Scalar T] (eval : List T → T) (args : List (SrcRef T)) (opts : EvalOptions) :
    List Nat → Bool → Option (Option (List T × Bool))
  | [], complete => some (some ([], complete))
  | row :: rows, complete =>
    match args.mapM (fun a => a.get? row) with
    | none => none
    | some vals =>
      let v := eval vals
      if opts.checkFinite && !(Scalar.isFinite v) then
        if opts.earlyExit then some none
        else (naryLoop eval args opts rows false).map fun r => r.map fun p => (v :: p.1, p.2)
      else (naryLoop eval args opts rows complete).map fun r => r.map fun p => (v :: p.1, p.2)

/-- `__all_finite`, evaluate.rs:316-318. -/
def allFinite [Scalar T] (out : List T) : Bool := out.all Scalar.isFinite

/-- The tail of `eval_nary`, evaluate.rs:571-582: post-loop finiteness check on what was written. -/
def finishEval [Scalar T] (opts : EvalOptions) (n : Nat) (out : List T) (complete : Bool) :
    List T × Bool :=
  if !opts.checkFinite then (out, true)
  else
    let finite := allFinite out
    if !finite && opts.earlyExit then (List.replicate n Scalar.nan, false)
    else (out, complete && finite)

/-- `eval_nary`, evaluate.rs:526-583, for an operator `eval`; `n` = `out.len()`, `A = args.length`.
Returns the new contents of `out` and the flag. -/
def evalNary [Scalar T] (eval : List T → T) (n : Nat) (args : List (SrcRef T)) (opts : EvalOptions) :
    Option (List T × Bool) :=
  if args.all SrcRef.isConst then
    match args.mapM (fun a => a.get? 0) with
    | none => none
    | some vals =>
      let v := eval vals
      if !opts.checkFinite then some (List.replicate n v, true)
      else
        let finite := Scalar.isFinite v
        if !finite && opts.earlyExit then some (List.replicate n Scalar.nan, finite)
        else some (List.replicate n v, finite)
  else
    match args with
    | [x] => some (finishEval opts n (evalUnaryLoop n x (fun a => eval [a])) true)
    | [x, y] => some (finishEval opts n (evalBinaryLoop n x y (fun a b => eval [a, b])) true)
    | args =>
      match naryLoop eval args opts (List.range n) true with
      | none => none
      | some none => some (List.replicate n Scalar.nan, false)
      | some (some (out, complete)) => some (finishEval opts n out complete)

/-- Outcome of the instruction loop. -/
inductive ExecRes (S : Type) where
  | exited (scratch : S)            -- early `return false`; the scratch buffer keeps its contents
  | done (scratch : S) (complete : Bool)

/-- One instruction of `eval_plan_array_into`, evaluate.rs:226-249: the new scratch and `ok`. -/
def evalInstr [Scalar T] (ops : OpSet T) (xData consts : List T) (nRows : Nat) (opts : EvalOptions)
    (scratch : List T) (i : Instr) : Option (List T × Bool) :=
  let dstStart := i.dst * nRows
  if dstStart + nRows ≤ scratch.length then
    let before := scratch.take dstStart
    let after := scratch.drop (dstStart + nRows)
    match i.args.mapM (fun a => resolveValSrc a xData nRows consts i.dst before after) with
    | none => none
    | some args =>
      if ops.known i.arity i.op then
        match evalNary (ops.eval i.arity i.op) nRows args opts with
        | none => none
        | some (out, ok) => some (before ++ out ++ after, ok)
      else none
  else none

/-- Instruction loop of `eval_plan_array_into`, evaluate.rs:226-253. -/
def evalInstrs [Scalar T] (ops : OpSet T) (xData consts : List T) (nRows : Nat)
    (opts : EvalOptions) : List Instr → List T → Bool → Option (ExecRes (List T))
  | [], scratch, complete => some (.done scratch complete)
  | i :: is, scratch, complete =>
    match evalInstr ops xData consts nRows opts scratch i with
    | none => none
    | some (scratch', ok) =>
      if opts.earlyExit && !ok then some (.exited scratch')
      else evalInstrs ops xData consts nRows opts is scratch' (complete && ok)

/-- Scratch buffers are `Array2`s: shape plus flat contents. -/
structure Buf (T : Type) where
  nrows : Nat
  ncols : Nat
  data : List T

/-- `Array2::zeros((r, c))` -/
def Buf.zeros [Scalar T] (r c : Nat) : Buf T := ⟨r, c, List.replicate (r * c) Scalar.zero⟩

/-- `eval_plan_array_into`, evaluate.rs:201-276.  `out` is the caller's buffer; on the early-exit
paths it is returned untouched.  Result: (out, flag, scratch buffer after the call). -/
def evalPlanArrayInto [Scalar T] (ops : OpSet T) (out : List T) (plan : EvalPlan) (consts : List T)
    (X : Mat T) (scratch : Buf T) (opts : EvalOptions) : Option (List T × Bool × Buf T) :=
  let nRows := X.cols
  if out.length = nRows then
    let scratch := if scratch.nrows ≠ plan.nSlots ∨ scratch.ncols ≠ nRows
      then Buf.zeros plan.nSlots nRows else scratch
    match evalInstrs ops X.data consts nRows opts plan.instrs scratch.data true with
    | none => none
    | some (.exited sd) => some (out, false, { scratch with data := sd })
    | some (.done sd complete) =>
      let scratch' := { scratch with data := sd }
      match plan.root with
      | .var f => (slice? X.data (f * nRows) nRows).map fun s => (s, complete, scratch')
      | .const c =>
        match consts[c]? with
        | none => none
        | some v =>
          if opts.checkFinite && !(Scalar.isFinite v) then
            if opts.earlyExit then some (out, false, scratch')
            else some (List.replicate nRows v, false, scratch')
          else some (List.replicate nRows v, complete, scratch')
      | .slot s => (slice? sd (s * nRows) nRows).map fun c => (c, complete, scratch')
  else none

/-- `PostfixExpr`, expression.rs:11-16 (metadata is modelled only where it matters). -/
structure PostfixExpr (T : Type) where
  nodes : List PNode
  consts : List T
deriving DecidableEq, Repr

/-- `EvalContext`, evaluate.rs:26-33. -/
structure EvalContext (T : Type) where
  scratch : Option (Buf T)
  nRows : Nat
  plan : Option EvalPlan
  planNodesLen : Nat
  planNConsts : Nat
  planNFeatures : Nat

/-- `EvalContext::new`, evaluate.rs:36-45. -/
def EvalContext.new (nRows : Nat) : EvalContext T :=
  { scratch := none, nRows, plan := none, planNodesLen := 0, planNConsts := 0, planNFeatures := 0 }

/-- `EvalContext::needs_recompile`, evaluate.rs:58-70. -/
def EvalContext.needsRecompile (hash : List PNode → UInt64) (ctx : EvalContext T)
    (e : PostfixExpr T) (X : Mat T) : Bool :=
  match ctx.plan with
  | none => true
  | some plan =>
    if ctx.planNodesLen ≠ e.nodes.length ∨ ctx.planNConsts ≠ e.consts.length
        ∨ ctx.planNFeatures ≠ X.rows then true
    else plan.hash != hash e.nodes

/-- `EvalContext::ensure_scratch`, evaluate.rs:72-80. -/
def EvalContext.ensureScratch [Scalar T] (ctx : EvalContext T) (nSlots : Nat) : EvalContext T :=
  match ctx.scratch with
  | some s => if s.nrows = nSlots ∧ s.ncols = ctx.nRows then ctx
    else { ctx with scratch := some (Buf.zeros nSlots ctx.nRows) }
  | none => { ctx with scratch := some (Buf.zeros nSlots ctx.nRows) }

/-- `EvalContext::setup`, evaluate.rs:47-56. -/
def EvalContext.setup [Scalar T] (hash : List PNode → UInt64) (D : Nat) (ctx : EvalContext T)
    (e : PostfixExpr T) (X : Mat T) : Option (EvalContext T) :=
  if ctx.needsRecompile hash e X then
    match compilePlan hash D e.nodes X.rows e.consts.length with
    | none => none
    | some plan =>
      some (EvalContext.ensureScratch { ctx with
        plan := some plan, planNodesLen := e.nodes.length,
        planNConsts := e.consts.length, planNFeatures := X.rows } plan.nSlots)
  else
    match ctx.plan with
    | none => none
    | some plan => some (ctx.ensureScratch plan.nSlots)

/-- `eval_tree_array_into`, evaluate.rs:277-297.  Returns (out, flag, context). -/
def evalTreeArrayInto [Scalar T] (ops : OpSet T) (hash : List PNode → UInt64) (D : Nat)
    (out : List T) (e : PostfixExpr T) (X : Mat T) (ctx : EvalContext T) (opts : EvalOptions) :
    Option (List T × Bool × EvalContext T) :=
  if out.length = X.cols ∧ ctx.nRows = X.cols then
    match ctx.setup hash D e X with
    | none => none
    | some ctx' =>
      match ctx'.plan, ctx'.scratch with
      | some plan, some scratch =>
        (evalPlanArrayInto ops out plan e.consts X scratch opts).map
          fun r => (r.1, r.2.1, { ctx' with scratch := some r.2.2 })
      | _, _ => none
  else none

/-- `eval_tree_array`, evaluate.rs:184-199. -/
def evalTreeArray [Scalar T] (ops : OpSet T) (hash : List PNode → UInt64) (D : Nat)
    (e : PostfixExpr T) (X : Mat T) (opts : EvalOptions) : Option (List T × Bool) :=
  (evalTreeArrayInto ops hash D (List.replicate X.cols Scalar.zero) e X (EvalContext.new X.cols)
    opts).map fun r => (r.1, r.2.1)

end SR
