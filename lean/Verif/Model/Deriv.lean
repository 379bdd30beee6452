import Verif.Model.Eval
/-
Model of the derivative evaluators: `dynamic_expressions/src/evaluate_derivative.rs` and the
derivative kernels of `evaluate.rs`.
-/
namespace SR
variable {T : Type}

/-- `resolve_der_src`, evaluate.rs:114-143. -/
def resolveDerSrc [Scalar T] (src : Src) (direction dstSlot : Nat) (before after : List T)
    (nRows : Nat) : Option (SrcRef T) :=
  match src with
  | .var f => some (.const (if f = direction then Scalar.one else Scalar.zero))
  | .const _ => some (.const Scalar.zero)
  | .slot s =>
    if s < dstSlot then (slice? before (s * nRows) nRows).map .slice
    else if dstSlot < s then (slice? after ((s - dstSlot - 1) * nRows) nRows).map .slice
    else none

/-- `GradRef`, dispatch.rs:11-20. -/
inductive GradRef (T : Type) where
  | slice (s : List T)
  | basis (k : Nat)
  | zero

/-- `resolve_grad_src`, evaluate.rs:145-182. -/
def resolveGradSrc (src : Src) (variable_ : Bool) (dstSlot : Nat) (before after : List T)
    (slotStride : Nat) : Option (GradRef T) :=
  match src with
  | .var f => some (if variable_ then .basis f else .zero)
  | .const c => some (if variable_ then .zero else .basis c)
  | .slot s =>
    if s < dstSlot then (slice? before (s * slotStride) slotStride).map .slice
    else if dstSlot < s then (slice? after ((s - dstSlot - 1) * slotStride) slotStride).map .slice
    else none

/-- `grad_at`, dispatch.rs:22-34. -/
def gradAt [Scalar T] (g : GradRef T) (dir row nRows : Nat) : Option T :=
  match g with
  | .slice s => s[dir * nRows + row]?
  | .basis k => some (if dir = k then Scalar.one else Scalar.zero)
  | .zero => some Scalar.zero

/-- `grad_dir_view`, evaluate.rs:373-379. -/
def gradDirView [Scalar T] (g : GradRef T) (dir nRows : Nat) : Option (SrcRef T) :=
  match g with
  | .slice s => (slice? s (dir * nRows) nRows).map .slice
  | .basis k => some (.const (if dir = k then Scalar.one else Scalar.zero))
  | .zero => some (.const Scalar.zero)

/-- `grad_unary_loop`, evaluate.rs:381-408; `n = out.len()`; `none` = `unreachable!`. -/
def gradUnaryLoop [Scalar T] (n : Nat) (x dx : SrcRef T) (partial_ : List T → Nat → T) :
    Option (List T) :=
  match x, dx with
  | .slice xs, .slice dxs =>
    some (List.zipWith (fun xv dxv => Scalar.mul (partial_ [xv] 0) dxv) xs dxs)
  | .slice xs, .const dxc =>
    if Scalar.isZero dxc then some (List.replicate n Scalar.zero)
    else some (xs.map fun xv => Scalar.mul (partial_ [xv] 0) dxc)
  | .const xc, .const dxc =>
    if Scalar.isZero dxc then some (List.replicate n Scalar.zero)
    else some (List.replicate n (Scalar.mul (partial_ [xc] 0) dxc))
  | .const _, .slice _ => none

/-- The summand of `grad_binary_loop`: `partial(&vals, 0) * dx + partial(&vals, 1) * dy`. -/
def pair2 [Scalar T] (partial_ : List T → Nat → T) (xv yv dxv dyv : T) : T :=
  Scalar.add (Scalar.mul (partial_ [xv, yv] 0) dxv) (Scalar.mul (partial_ [xv, yv] 1) dyv)

/-- `grad_binary_loop`, evaluate.rs:410-480, one line per match arm. -/
def gradBinaryLoop [Scalar T] (n : Nat) (x y dx dy : SrcRef T) (partial_ : List T → Nat → T) :
    Option (List T) :=
  let f := pair2 partial_
  match x, y, dx, dy with
  | .slice xs, .slice ys, .slice dxs, .slice dys =>
    some (List.zipWith (fun p q => f p.1 p.2 q.1 q.2) (xs.zip ys) (dxs.zip dys))
  | .slice xs, .slice ys, .slice dxs, .const dyc =>
    some (List.zipWith (fun p dxv => f p.1 p.2 dxv dyc) (xs.zip ys) dxs)
  | .slice xs, .slice ys, .const dxc, .slice dys =>
    some (List.zipWith (fun p dyv => f p.1 p.2 dxc dyv) (xs.zip ys) dys)
  | .slice xs, .slice ys, .const dxc, .const dyc =>
    some (List.zipWith (fun xv yv => f xv yv dxc dyc) xs ys)
  | .slice xs, .const yc, .slice dxs, .const dyc =>
    some (List.zipWith (fun xv dxv => f xv yc dxv dyc) xs dxs)
  | .slice xs, .const yc, .const dxc, .const dyc => some (xs.map fun xv => f xv yc dxc dyc)
  | .const xc, .slice ys, .const dxc, .slice dys =>
    some (List.zipWith (fun yv dyv => f xc yv dxc dyv) ys dys)
  | .const xc, .slice ys, .const dxc, .const dyc => some (ys.map fun yv => f xc yv dxc dyc)
  | .const xc, .const yc, .const dxc, .const dyc => some (List.replicate n (f xc yc dxc dyc))
  | _, _, _, _ => none

/-- `for (j, dvj) in dvals.iter().enumerate() { dv_out += partial(vals, j) * dvj }`,
evaluate.rs:628-632 and 718-722. -/
def accumPartials [Scalar T] (partial_ : Nat → T) : List T → Nat → T → T
  | [], _, acc => acc
  | d :: ds, j, acc =>
    accumPartials partial_ ds (j + 1) (Scalar.add acc (Scalar.mul (partial_ j) d))

/-- Row loop of `diff_nary` for arity ≥ 3, evaluate.rs:618-644 (outer `none`: index panic, inner
`none`: early return after NaN fill). -/
def diffLoop [Scalar T] (eval : List T → T) (partial_ : List T → Nat → T)
    (args dargs : List (SrcRef T)) (opts : EvalOptions) :
    List Nat → Bool → Option (Option (List T × List T × Bool))
  | [], complete => some (some ([], [], complete))
  | row :: rows, complete =>
    match args.mapM (fun a => a.get? row), dargs.mapM (fun a => a.get? row) with
    | some vals, some dvals =>
      let v := eval vals
      let d := accumPartials (partial_ vals) dvals 0 Scalar.zero
      let badV := opts.checkFinite && !(Scalar.isFinite v)
      let badD := opts.checkFinite && !(Scalar.isFinite d)
      if badV && opts.earlyExit then some none
      else if badD && opts.earlyExit then some none
      else (diffLoop eval partial_ args dargs opts rows
          (if badV || badD then false else complete)).map
        fun r => r.map fun p => (v :: p.1, d :: p.2.1, p.2.2)
    | _, _ => none

/-- Post-loop check of `diff_nary`, evaluate.rs:647-655. -/
def finishDiff [Scalar T] (opts : EvalOptions) (n m : Nat) (out der : List T) (complete : Bool) :
    List T × List T × Bool :=
  if opts.checkFinite then
    let finite := allFinite out
    if !finite && opts.earlyExit then
      (List.replicate n Scalar.nan, List.replicate m Scalar.nan, false)
    else (out, der, complete && finite)
  else (out, der, complete)

/-- `diff_nary`, evaluate.rs:585-658. -/
def diffNary [Scalar T] (eval : List T → T) (partial_ : List T → Nat → T) (n : Nat)
    (args dargs : List (SrcRef T)) (opts : EvalOptions) : Option (List T × List T × Bool) :=
  match args, dargs with
  | [x], [dx] =>
    (gradUnaryLoop n x dx partial_).map fun der =>
      finishDiff opts n n (evalUnaryLoop n x (fun a => eval [a])) der true
  | [x, y], [dx, dy] =>
    (gradBinaryLoop n x y dx dy partial_).map fun der =>
      finishDiff opts n n (evalBinaryLoop n x y (fun a b => eval [a, b])) der true
  | args, dargs =>
    match diffLoop eval partial_ args dargs opts (List.range n) true with
    | none => none
    | some none => some (List.replicate n Scalar.nan, List.replicate n Scalar.nan, false)
    | some (some (out, der, complete)) => some (finishDiff opts n n out der complete)

/-- `grad_nary`, evaluate.rs:660-738.  The result's second component is the flat dir-major gradient
slab.  `chunks_mut(0)` panics, hence the guard on `n` for arity ≥ 3. -/
def gradNary [Scalar T] (eval : List T → T) (partial_ : List T → Nat → T) (n nDir : Nat)
    (args : List (SrcRef T)) (gs : List (GradRef T)) (opts : EvalOptions) :
    Option (List T × List T × Bool) :=
  match args, gs with
  | [x], [g] =>
    ((List.range nDir).mapM fun dir =>
      (gradDirView g dir n).bind fun dx => gradUnaryLoop n x dx partial_).map fun slabs =>
        finishDiff opts n (nDir * n) (evalUnaryLoop n x (fun a => eval [a])) slabs.flatten true
  | [x, y], [g, h] =>
    ((List.range nDir).mapM fun dir =>
      (gradDirView g dir n).bind fun dx => (gradDirView h dir n).bind fun dy =>
        match dx, dy with
        | .const dxc, .const dyc =>
          if Scalar.isZero dxc && Scalar.isZero dyc then some (List.replicate n Scalar.zero)
          else gradBinaryLoop n x y dx dy partial_
        | _, _ => gradBinaryLoop n x y dx dy partial_).map fun slabs =>
      finishDiff opts n (nDir * n) (evalBinaryLoop n x y (fun a b => eval [a, b])) slabs.flatten true
  | args, gs =>
    if n = 0 then none else
    match (List.range n).mapM (fun row => (args.mapM (fun a : SrcRef T => a.get? row)).map eval),
      (List.range nDir).mapM (fun dir => (List.range n).mapM fun row =>
        (args.mapM (fun a : SrcRef T => a.get? row)).bind fun vals =>
          (gs.mapM (fun g => gradAt g dir row n)).map fun ds =>
            accumPartials (partial_ vals) ds 0 Scalar.zero) with
    | some out, some slabs => some (finishDiff opts n (nDir * n) out slabs.flatten true)
    | _, _ => none

/-- The instruction loop shared (textually) by `eval_diff_tree_array` (evaluate_derivative.rs:143-192)
and `eval_grad_tree_array` (273-325): `step` executes one instruction. -/
def instrLoop {S : Type} (early : Bool) (step : S → Instr → Option (S × Bool)) :
    List Instr → S → Bool → Option (ExecRes S)
  | [], s, complete => some (.done s complete)
  | i :: is, s, complete =>
    match step s i with
    | none => none
    | some (s', ok) =>
      if early && !ok then some (.exited s')
      else instrLoop early step is s' (complete && ok)

/-- One instruction of `eval_diff_tree_array`, evaluate_derivative.rs:144-187.  State: (value scratch,
derivative scratch). -/
def diffInstr [Scalar T] (ops : OpSet T) (xData consts : List T) (nRows direction : Nat)
    (opts : EvalOptions) (s : List T × List T) (i : Instr) : Option ((List T × List T) × Bool) :=
  let dstStart := i.dst * nRows
  if dstStart + nRows ≤ s.1.length ∧ dstStart + nRows ≤ s.2.length then
    let vb := s.1.take dstStart
    let va := s.1.drop (dstStart + nRows)
    let db := s.2.take dstStart
    let da := s.2.drop (dstStart + nRows)
    match i.args.mapM (fun a => (resolveValSrc a xData nRows consts i.dst vb va).bind fun v =>
      (resolveDerSrc a direction i.dst db da nRows).map fun d => (v, d)) with
    | none => none
    | some args =>
      if ops.known i.arity i.op then
        match diffNary (ops.eval i.arity i.op) (ops.partial_ i.arity i.op) nRows
          (args.map Prod.fst) (args.map Prod.snd) opts with
        | none => none
        | some (out, der, ok) => some ((vb ++ out ++ va, db ++ der ++ da), ok)
      else none
  else none

/-- `DiffContext` (evaluate_derivative.rs:12-21) and `GradContext` (46-55): identical fields, the
second scratch buffer is the derivative resp. gradient buffer. -/
structure DContext (T : Type) where
  val : Buf T
  der : Buf T
  nRows : Nat
  plan : Option EvalPlan
  planNodesLen : Nat
  planNConsts : Nat
  planNFeatures : Nat

/-- `DiffContext::new` / `GradContext::new`, evaluate_derivative.rs:24-34, 58-68. -/
def DContext.new [Scalar T] (nRows : Nat) : DContext T :=
  { val := Buf.zeros 0 0, der := Buf.zeros 0 0, nRows, plan := none, planNodesLen := 0,
    planNConsts := 0, planNFeatures := 0 }

/-- The recompilation test, evaluate_derivative.rs:117-120 and 245-248. -/
def DContext.needsRecompile (hash : List PNode → UInt64) (ctx : DContext T) (e : PostfixExpr T)
    (X : Mat T) : Bool :=
  if ctx.planNodesLen ≠ e.nodes.length ∨ ctx.planNConsts ≠ e.consts.length
      ∨ ctx.planNFeatures ≠ X.rows then true
  else match ctx.plan with
    | none => true
    | some p => p.hash != hash e.nodes

/-- Reallocate a buffer if its shape differs; body of `ensure_scratch`, evaluate_derivative.rs:36-43,
70-78. -/
def Buf.ensure [Scalar T] (b : Buf T) (r c : Nat) : Buf T :=
  if b.nrows ≠ r ∨ b.ncols ≠ c then Buf.zeros r c else b

/-- Recompile if needed and size the scratch buffers (`derCols` = row length of the second buffer),
evaluate_derivative.rs:117-129 and 245-258.  Returns the plan and the context. -/
def DContext.setup [Scalar T] (hash : List PNode → UInt64) (D : Nat) (ctx : DContext T)
    (e : PostfixExpr T) (X : Mat T) (derCols : Nat) : Option (EvalPlan × DContext T) :=
  let ensure (plan : EvalPlan) (c : DContext T) : DContext T :=
    { c with val := c.val.ensure plan.nSlots c.nRows, der := c.der.ensure plan.nSlots derCols }
  if ctx.needsRecompile hash e X then
    match compilePlan hash D e.nodes X.rows e.consts.length with
    | none => none
    | some plan => some (plan, ensure plan { ctx with
        plan := some plan, planNodesLen := e.nodes.length,
        planNConsts := e.consts.length, planNFeatures := X.rows })
  else
    match ctx.plan with
    | none => none
    | some plan => some (plan, ensure plan ctx)

/-- `eval_diff_tree_array`, evaluate_derivative.rs:100-226.  Result: (values, derivatives, flag,
context). -/
def evalDiffTreeArray [Scalar T] (ops : OpSet T) (hash : List PNode → UInt64) (D : Nat)
    (e : PostfixExpr T) (X : Mat T) (direction : Nat) (ctx : DContext T) (opts : EvalOptions) :
    Option (List T × List T × Bool × DContext T) :=
  let nRows := X.cols
  let nans : List T := List.replicate nRows Scalar.nan
  if direction < X.rows ∧ ctx.nRows = X.cols then
    match ctx.setup hash D e X ctx.nRows with
    | none => none
    | some (plan, ctx) =>
      match instrLoop opts.earlyExit (diffInstr ops X.data e.consts nRows direction opts)
          plan.instrs (ctx.val.data, ctx.der.data) true with
      | none => none
      | some (.exited s) => some (nans, nans, false,
          { ctx with val := { ctx.val with data := s.1 }, der := { ctx.der with data := s.2 } })
      | some (.done s complete) =>
        let ctx' : DContext T :=
          { ctx with val := { ctx.val with data := s.1 }, der := { ctx.der with data := s.2 } }
        match plan.root with
        | .var f => (slice? X.data (f * nRows) nRows).map fun out =>
            (out, List.replicate nRows (if f = direction then Scalar.one else Scalar.zero), complete,
              ctx')
        | .const c =>
          match e.consts[c]? with
          | none => none
          | some v =>
            let bad := opts.checkFinite && !(Scalar.isFinite v)
            if bad && opts.earlyExit then some (nans, nans, false, ctx')
            else some (List.replicate nRows v, List.replicate nRows Scalar.zero,
              (if bad then false else complete), ctx')
        | .slot k => (slice? s.1 (k * nRows) nRows).bind fun out =>
            (slice? s.2 (k * nRows) nRows).map fun der => (out, der, complete, ctx')
  else none

/-- One instruction of `eval_grad_tree_array`, evaluate_derivative.rs:274-320. -/
def gradInstr [Scalar T] (ops : OpSet T) (xData consts : List T) (nRows nDir : Nat)
    (variable_ : Bool) (opts : EvalOptions) (s : List T × List T) (i : Instr) :
    Option ((List T × List T) × Bool) :=
  let stride := nRows * nDir
  let dstStart := i.dst * nRows
  let gStart := i.dst * stride
  if dstStart + nRows ≤ s.1.length ∧ gStart + stride ≤ s.2.length then
    let vb := s.1.take dstStart
    let va := s.1.drop (dstStart + nRows)
    let gb := s.2.take gStart
    let ga := s.2.drop (gStart + stride)
    match i.args.mapM (fun a => (resolveValSrc a xData nRows consts i.dst vb va).bind fun v =>
      (resolveGradSrc a variable_ i.dst gb ga stride).map fun d => (v, d)) with
    | none => none
    | some args =>
      if ops.known i.arity i.op then
        match gradNary (ops.eval i.arity i.op) (ops.partial_ i.arity i.op) nRows nDir
          (args.map Prod.fst) (args.map Prod.snd) opts with
        | none => none
        | some (out, grad, ok) => some ((vb ++ out ++ va, gb ++ grad ++ ga), ok)
      else none
  else none

/-- `eval_grad_tree_array`, evaluate_derivative.rs:228-382.  Result: (values, flat dir-major gradient
data, flag, context); `n_dir` of the returned `GradMatrix` is `X.rows` or the number of constants.
Filling the gradient of a leaf root goes through `chunks_mut(n_rows)`, which panics for 0 rows. -/
def evalGradTreeArray [Scalar T] (ops : OpSet T) (hash : List PNode → UInt64) (D : Nat)
    (e : PostfixExpr T) (X : Mat T) (variable_ : Bool) (ctx : DContext T) (opts : EvalOptions) :
    Option (List T × List T × Bool × DContext T) :=
  let nRows := X.cols
  let nDir := if variable_ then X.rows else e.consts.length
  let nanRet (ctx : DContext T) : List T × List T × Bool × DContext T :=
    (List.replicate nRows Scalar.nan, List.replicate (nDir * nRows) Scalar.nan, false, ctx)
  let basis (k : Nat) : Option (List T) :=
    if nRows = 0 then none
    else some ((List.range nDir).flatMap fun dir =>
      List.replicate nRows (if dir = k then Scalar.one else Scalar.zero))
  if ctx.nRows = X.cols then
    match ctx.setup hash D e X (nDir * ctx.nRows) with
    | none => none
    | some (plan, ctx) =>
      match instrLoop opts.earlyExit (gradInstr ops X.data e.consts nRows nDir variable_ opts)
          plan.instrs (ctx.val.data, ctx.der.data) true with
      | none => none
      | some (.exited s) => some (nanRet
          { ctx with val := { ctx.val with data := s.1 }, der := { ctx.der with data := s.2 } })
      | some (.done s complete) =>
        let ctx' : DContext T :=
          { ctx with val := { ctx.val with data := s.1 }, der := { ctx.der with data := s.2 } }
        let zeros : List T := List.replicate (nDir * nRows) Scalar.zero
        match plan.root with
        | .var f => (slice? X.data (f * nRows) nRows).bind fun out =>
            (if variable_ then basis f else some zeros).map fun g => (out, g, complete, ctx')
        | .const c =>
          match e.consts[c]? with
          | none => none
          | some v =>
            let bad := opts.checkFinite && !(Scalar.isFinite v)
            if bad && opts.earlyExit then some (nanRet ctx')
            else (if variable_ then some zeros else basis c).map fun g =>
              (List.replicate nRows v, g, (if bad then false else complete), ctx')
        | .slot k => (slice? s.1 (k * nRows) nRows).bind fun out =>
            (slice? s.2 (k * (nRows * nDir)) (nRows * nDir)).map fun g => (out, g, complete, ctx')
  else none

end SR
