import Verif.Lemmas.Instr

/-! What it means that the code of a syntax tree is in place and does what the tree means. -/

namespace Mjs.Exec
open Mjs Mjs.Str Mjs.Obj Mjs.Core Mjs.Code Mjs.Sem

/-! ## Code in place -/

/-- Where the literal of a function begins. -/
def litPos (pc : Nat) : Option Name → Nat
  | none => pc
  | some x => pc + (create x).length + (pushStr x).length + 1

mutual
/-- Beyond the code of `e` being at `pc`: numerals are read as they were written, and the function table `F` knows the
function literals. -/
def WfE (F : Nat → Option Fn) (bp : Part) : Nat → Expr → Prop
  | _, .int n => n < 2 ^ 64
  | pc, .dbl t => Tok.strtodLen (bp.data.drop (pc + 1 + (vint t.length).length)) = t.length
  | pc, .get l => WfL F bp pc l
  | pc, .obj ps => WfProps F bp (pc + 1) ps
  | pc, .arr es => WfItems F bp (pc + 1) es
  | pc, .func label name ps body =>
    label = bp.startIdx + litPos pc name + 1 + (vint (codeFun ps body).length).length ∧ F label = some ⟨ps, body⟩
  | pc, .call f args => WfE F bp pc f ∧ WfArgs F bp (pc + (code f).length + 1) args
  | pc, .un _ e => WfE F bp pc e
  | pc, .incr _ _ l => WfL F bp pc l
  | pc, .bin _ a c => WfE F bp pc a ∧ WfE F bp (pc + (code a).length) c
  | pc, .and a c => WfE F bp pc a ∧
    WfE F bp (pc + (code a).length + 1 + (vint (DROP :: code c).length).length + 1) c
  | pc, .or a c => WfE F bp pc a ∧
    WfE F bp (pc + (code a).length + 1 + (vint (DROP :: code c).length).length + 1) c
  | pc, .cond x a c =>
    let ra := code a ++ JMP :: vint (DROP :: code c).length
    WfE F bp pc x ∧ WfE F bp (pc + (code x).length + 1 + (vint ra.length).length) a ∧
      WfE F bp (pc + (code x).length + 1 + (vint ra.length).length + ra.length + 1) c
  | pc, .assign _ l e => WfL F bp pc l ∧ WfE F bp (pc + (codeL l).length) e
  | _, .str _ => True
  | _, .tru => True
  | _, .fls => True
  | _, .null => True
  | _, .undef => True
  | _, .this => True
def WfL (F : Nat → Option Fn) (bp : Part) : Nat → Lval → Prop
  | _, .var _ => True
  | pc, .dot e _ => WfE F bp pc e
  | pc, .index e k => WfE F bp pc e ∧ WfE F bp (pc + (code e).length) k
def WfArgs (F : Nat → Option Fn) (bp : Part) : Nat → List Expr → Prop
  | _, [] => True
  | pc, e :: es => WfE F bp pc e ∧ WfArgs F bp (pc + (code e).length) es
def WfItems (F : Nat → Option Fn) (bp : Part) : Nat → List Expr → Prop
  | _, [] => True
  | pc, e :: es => WfE F bp (pc + 1) e ∧ WfItems F bp (pc + 1 + (code e).length + 1) es
def WfProps (F : Nat → Option Fn) (bp : Part) : Nat → List (Name × Expr) → Prop
  | _, [] => True
  | pc, (k, e) :: ps => WfE F bp (pc + 1 + (pushStr k).length + 1) e ∧
      WfProps F bp (pc + 1 + (pushStr k).length + 1 + (code e).length + 3) ps
def WfMore (F : Nat → Option Fn) (bp : Part) : Nat → List Expr → Prop
  | _, [] => True
  | pc, e :: es => WfE F bp (pc + 1) e ∧ WfMore F bp (pc + 1 + (code e).length) es
def WfLet (F : Nat → Option Fn) (bp : Part) : Nat → Name → Option Expr → Prop
  | _, _, none => True
  | pc, x, some e => WfE F bp (pc + (create x).length + (pushStr x).length + 1) e
def WfLets (F : Nat → Option Fn) (bp : Part) : Nat → List (Name × Option Expr) → Prop
  | _, [] => True
  | pc, (x, i) :: ds => WfLet F bp (pc + 1) x i ∧ WfLets F bp (pc + 1 + (codeLet x i).length) ds
/-- The same for statements. -/
def WfS (F : Nat → Option Fn) (bp : Part) : Nat → Stmt → Prop
  | _, .empty => True
  | pc, .exprs e es => WfE F bp pc e ∧ WfMore F bp (pc + (code e).length) es
  | pc, .lets x i ds => WfLet F bp pc x i ∧ WfLets F bp (pc + (codeLet x i).length) ds
  | pc, .block ss => WfSs F bp (pc + 1) ss
  | pc, .ite c s => WfE F bp pc c ∧ WfS F bp (pc + (code c).length + 1 + (vint (codeS s).length).length) s
  | pc, .itee c s t =>
    let rs := codeS s ++ JMP :: vint (DROP :: codeS t).length
    WfE F bp pc c ∧ WfS F bp (pc + (code c).length + 1 + (vint rs.length).length) s ∧
      WfS F bp (pc + (code c).length + 1 + (vint rs.length).length + rs.length + 1) t
  | pc, .while c body =>
    let rb := codeSs body ++ [DROP, CONTINUE]
    let r := (0 : UInt8) :: code c ++ JMP_FALSE :: vint rb.length ++ rb ++ [BREAK]
    WfE F bp (pc + 2 + (vint r.length).length + 1) c ∧
      WfSs F bp (pc + 2 + (vint r.length).length + 1 + (code c).length + 1 + (vint rb.length).length) body
  | pc, .for init c inc body =>
    let ri := code inc ++ [DROP]
    let rb := codeSs body ++ [DROP, CONTINUE]
    let rj := codeS init ++ DROP :: JMP :: vint ri.length
    let r := vint rj.length ++ rj ++ ri ++ code c ++ JMP_FALSE :: vint rb.length ++ rb ++ [BREAK]
    let p := pc + 2 + (vint r.length).length + (vint rj.length).length
    WfS F bp p init ∧ WfE F bp (p + rj.length) inc ∧ WfE F bp (p + rj.length + ri.length) c ∧
      WfSs F bp (p + rj.length + ri.length + (code c).length + 1 + (vint rb.length).length) body
  | pc, .forIn isLet x e body =>
    let rb := codeSs body ++ [DROP, CONTINUE]
    let r := (0 : UInt8) :: FOR_IN_NEXT :: DUP :: JMP_FALSE :: vint rb.length ++ rb ++ [BREAK]
    let p := pc + 1 + (if isLet then create x else []).length + (pushStr x).length
    WfE F bp p e ∧
      WfSs F bp (p + (code e).length + 2 + (vint r.length).length + 4 + (vint rb.length).length) body
  | _, .break => True
  | _, .continue => True
  | _, .ret none => True
  | pc, .ret (some e) => WfE F bp pc e
def WfSs (F : Nat → Option Fn) (bp : Part) : Nat → List Stmt → Prop
  | _, [] => True
  | pc, s :: ss => WfS F bp pc s ∧ WfRest F bp (pc + (codeS s).length) ss
def WfRest (F : Nat → Option Fn) (bp : Part) : Nat → List Stmt → Prop
  | _, [] => True
  | pc, s :: ss => WfS F bp (pc + 1) s ∧ WfRest F bp (pc + 1 + (codeS s).length) ss
end

/-- The code of every function of the table is where the table says. -/
def World (F : Nat → Option Fn) (b : Vm) : Prop :=
  ∀ a fn, F a = some fn → ∃ bp pc, Good b bp ∧ a = bp.startIdx + pc ∧ 1 ≤ pc ∧
    Placed bp pc (codeFun fn.params fn.body) ∧ WfSs F bp (pc + 1 + (codeParams 0 fn.params).length) fn.body

/-! ## Results -/

/-- The last opcode executed by the code of an expression. -/
def LastOp : Expr → UInt8 → Prop
  | .get _, op => op = GET
  | .and _ _, _ => True
  | .or _ _, _ => True
  | .cond _ _ _, _ => True
  | _, op => op ≠ GET

/-- After an expression: its value is on the stack. -/
def EQ (vm : Vm) (st : Stacks) (bp : Part) (pc : Nat) (e : Expr) : Vm → Val → Mach → Prop := fun vm' v m' =>
  Kept vm vm' ∧ At m' vm' (st.push v) bp pc ∧ LastOp e m'.op

/-- After key and object. -/
def LQ (vm : Vm) (st : Stacks) (bp : Part) (pc : Nat) (l : Lval) : Vm → Val × Val → Mach → Prop := fun vm' p m' =>
  Kept vm vm' ∧ At m' vm' ((st.push p.1).push p.2) bp pc ∧
    m'.op = (match l with | .var _ => FIND_SCOPE | _ => SWAP)

/-- After code that leaves the stack as it was. -/
def UQ (vm : Vm) (st : Stacks) (bp : Part) (pc : Nat) (op : UInt8) : Vm → Unit → Mach → Prop := fun vm' _ m' =>
  Kept vm vm' ∧ At m' vm' st bp pc ∧ (op ≠ GET → m'.op ≠ GET)

/-- After code that leaves a value. -/
def VQ (vm : Vm) (st : Stacks) (bp : Part) (pc : Nat) : Vm → Val → Mach → Prop := fun vm' v m' =>
  Kept vm vm' ∧ At m' vm' (st.push v) bp pc ∧ m'.op ≠ GET

/-- The enclosing loop: number of scopes, addresses for `break` and `continue`, the loops around it. -/
structure LoopCtx where
  k : Nat
  brk : Nat
  cont : Nat
  outer : List Val

/-- The call being executed: stacks, scopes and `this` of the caller, and where it goes on; `none` when the caller is
`mjs_apply`. -/
structure FrameCtx where
  st : Stacks
  ret : Option (Part × Nat)
  scopes : List Val
  this : Val

/-- The address in the frame. -/
def FrameCtx.addr (f : FrameCtx) : Nat :=
  match f.ret with
  | some r => r.1.startIdx + r.2 - 1
  | none => offsetExit

/-- The loop stack describes the enclosing loop. -/
def InLoop (lc : Option LoopCtx) (st : Stacks) (vm : Vm) : Prop :=
  ∀ l, lc = some l → st.loopAddrs = l.outer ++ [mkInt l.k, mkInt l.brk, mkInt l.cont] ∧ l.k ≤ vm.scopes.length ∧
    1 ≤ l.brk ∧ l.brk < 2 ^ 31 ∧ 1 ≤ l.cont ∧ l.cont < 2 ^ 31

/-- The call stack describes the call. -/
structure Frame (b : Vm) (f : FrameCtx) (st : Stacks) (vm : Vm) : Prop where
  good : ∀ r, f.ret = some r → Good b r.1 ∧ 1 ≤ r.2 ∧ r.2 ≤ r.1.data.length
  parts : st.parts = f.st.parts ∧ st.bcodeLen = f.st.bcodeLen
  call : st.callStack = f.st.callStack ++ [f.this, mkInt f.addr, mkInt f.scopes.length,
    mkInt f.st.loopAddrs.length, mkInt (f.st.stack.length + 1 : Nat)]
  scopes : f.scopes <+: vm.scopes
  loops : f.st.loopAddrs <+: st.loopAddrs
  stack : ∃ w, f.st.stack ++ [w] <+: st.stack
  args : st.argStack = f.st.argStack

def InFrame (b : Vm) (fc : Option FrameCtx) (st : Stacks) (vm : Vm) : Prop := ∀ f, fc = some f → Frame b f st vm

/-- After a `return`; in a call from `mjs_apply`, before the `OP_RETURN` that ends the execution. -/
def Returned (f : FrameCtx) (v : Val) (vm' : Vm) (m' : Mach) : Prop :=
  match f.ret with
  | some r => At m' { vm' with scopes := f.scopes, this := f.this } (f.st.push v) r.1 r.2 ∧ m'.op = RETURN
  | none => m'.bp.data[m'.i]? = some RETURN ∧
      restoreFrame m'.vm = some (on { vm' with scopes := f.scopes, this := f.this } (f.st.push v), offsetExit)

/-- After a statement. -/
def SQ (vm : Vm) (st : Stacks) (bp : Part) (pc : Nat) (lc : Option LoopCtx) (fc : Option FrameCtx) :
    Vm → Comp → Mach → Prop := fun vm' c m' =>
  Kept vm vm' ∧ match c with
    | .normal v => At m' vm' (st.push v) bp pc
    | .brk => ∀ l, lc = some l → At m' { vm' with scopes := vm'.scopes.take l.k }
        { st.push mkUndefined with loopAddrs := l.outer } bp l.brk
    | .cont => ∀ l, lc = some l → At m' { vm' with scopes := vm'.scopes.take l.k } st bp l.cont
    | .ret v => ∀ f, fc = some f → Returned f v vm' m'

/-- After a loop: its end is at `pc`, and the machine is out of the loop. -/
def WQ (vm : Vm) (st : Stacks) (bp : Part) (pc : Nat) (outer : List Val) (fc : Option FrameCtx) : Vm → Comp → Mach → Prop :=
  fun vm' c m' => Kept vm vm' ∧ match c with
    | .normal v => At m' vm' { st.push v with loopAddrs := outer } bp pc
    | .ret v => ∀ f, fc = some f → Returned f v vm' m'
    | _ => False

/-- After `for .. in`: object, iterator and a value are still on the stack. -/
def FQ (vm : Vm) (st : Stacks) (bp : Part) (pc : Nat) (outer : List Val) (k o : Val) (fc : Option FrameCtx) :
    Vm → Comp → Mach → Prop :=
  fun vm' c m' => Kept vm vm' ∧ match c with
    | .normal v => v = k ∧ ∃ it, At m' vm' { ((((st.push k).push o).push it).push mkUndefined) with loopAddrs := outer } bp pc
    | .ret v => ∀ f, fc = some f → Returned f v vm' m'
    | _ => False

/-- The stacks at a call. -/
def Stacks.calling (st : Stacks) (f t : Val) (args : List Val) : Stacks :=
  { st with stack := st.stack ++ f :: args, argStack := st.argStack ++ [t, mkInt (st.stack.length + 1 : Nat)] }

/-- The code does what the semantics says, for `n` steps. -/
structure IH (E : Env) [Natives E] (F : Nat → Option Fn) (b : Vm) (n : Nat) : Prop where
  e : ∀ {d e vm st bp pc m}, Start b d vm st bp pc m → Placed bp pc (code e) → WfE F bp pc e →
    Sims E b (eval E F n d e) vm m (EQ vm st bp (pc + (code e).length) e)
  l : ∀ {d l vm st bp pc m}, Start b d vm st bp pc m → Placed bp pc (codeL l) → WfL F bp pc l →
    Sims E b (evalL E F n d l) vm m (LQ vm st bp (pc + (codeL l).length) l)
  args : ∀ {d es vm st bp pc m}, Start b d vm st bp pc m → Placed bp pc (codes es) → WfArgs F bp pc es →
    Sims E b (evalArgs E F n d es) vm m fun vm' vs m' =>
      Kept vm vm' ∧ At m' vm' (st.pushes vs) bp (pc + (codes es).length) ∧ vs.length ≤ d
  items : ∀ {d a es vm st bp pc m}, Ready b d vm st bp → At m vm (st.push a) bp pc → Placed bp pc (codeItems es) → WfItems F bp pc es →
    Sims E b (evalItems E F n d a es) vm m (UQ vm (st.push a) bp (pc + (codeItems es).length) m.op)
  props : ∀ {d a ps vm st bp pc m}, Ready b d vm st bp → At m vm (st.push a) bp pc → Placed bp pc (codeProps ps) → WfProps F bp pc ps →
    Sims E b (evalProps E F n d a ps) vm m (UQ vm (st.push a) bp (pc + (codeProps ps).length) m.op)
  call : ∀ {d f t args vm st bp pc m}, Start b d vm (st.calling f t args) bp pc m → Placed bp pc [CALL] →
    Above b (on vm st) → Sims E b (callFn E F n d f t args) vm m (VQ vm st bp (pc + 1))
  s : ∀ {d s vm st bp pc m} (lc fc), Start b d vm st bp pc m → Placed bp pc (codeS s) → WfS F bp pc s →
    InLoop lc st vm → InFrame b fc st vm → Sims E b (evalS E F n d s) vm m (SQ vm st bp (pc + (codeS s).length) lc fc)
  more : ∀ {d v es vm st bp pc m}, Ready b d vm st bp → At m vm (st.push v) bp pc → Placed bp pc (codeMore es) → WfMore F bp pc es →
    Sims E b (evalMore E F n d v es) vm m fun vm' c m' => Kept vm vm' ∧
      ∃ v', c = .normal v' ∧ At m' vm' (st.push v') bp (pc + (codeMore es).length)
  let_ : ∀ {d x i vm st bp pc m}, Start b d vm st bp pc m → Placed bp pc (codeLet x i) → WfLet F bp pc x i →
    Sims E b (evalLet E F n d x i) vm m fun vm' v m' => Kept vm vm' ∧ At m' vm' (st.push v) bp (pc + (codeLet x i).length)
  lets : ∀ {d v ds vm st bp pc m}, Ready b d vm st bp → At m vm (st.push v) bp pc → Placed bp pc (codeLets ds) → WfLets F bp pc ds →
    Sims E b (evalLets E F n d v ds) vm m fun vm' c m' => Kept vm vm' ∧
      ∃ v', c = .normal v' ∧ At m' vm' (st.push v') bp (pc + (codeLets ds).length)
  while_ : ∀ {d c body vm st bp pc m} (l : LoopCtx) (fc), Start b d vm st bp pc m →
    Placed bp pc (code c ++ JMP_FALSE :: (vint (codeSs body ++ [DROP, CONTINUE]).length ++
      (codeSs body ++ [DROP, CONTINUE]) ++ [BREAK])) →
    WfE F bp pc c →
    WfSs F bp (pc + (code c).length + 1 + (vint (codeSs body ++ [DROP, CONTINUE]).length).length) body →
    InLoop (some l) st vm → l.cont = pc → l.k = vm.scopes.length → InFrame b fc { st with loopAddrs := l.outer } vm →
    Above b (on vm { st with loopAddrs := l.outer }) →
    Sims E b (evalWhile E F n d c body) vm m (WQ vm st bp l.brk l.outer fc)
  for_ : ∀ {d c inc body vm st bp pc m} (l : LoopCtx) (fc),
    Start b d vm st bp (pc + (code inc ++ [DROP]).length) m →
    Placed bp pc ((code inc ++ [DROP]) ++ (code c ++ JMP_FALSE :: (vint (codeSs body ++ [DROP, CONTINUE]).length ++
      (codeSs body ++ [DROP, CONTINUE]) ++ [BREAK]))) →
    WfE F bp pc inc → WfE F bp (pc + (code inc ++ [DROP]).length) c →
    WfSs F bp (pc + (code inc ++ [DROP]).length + (code c).length + 1 +
      (vint (codeSs body ++ [DROP, CONTINUE]).length).length) body →
    InLoop (some l) st vm → l.cont = pc → l.k = vm.scopes.length → InFrame b fc { st with loopAddrs := l.outer } vm →
    Above b (on vm { st with loopAddrs := l.outer }) →
    Sims E b (evalFor E F n d c inc body) vm m (WQ vm st bp l.brk l.outer fc)
  forIn : ∀ {d k o it body vm st bp pc m} (l : LoopCtx) (fc), Ready b d vm st bp →
    At m vm (((st.push k).push o).push it) bp pc →
    Placed bp pc (FOR_IN_NEXT :: DUP :: JMP_FALSE :: (vint (codeSs body ++ [DROP, CONTINUE]).length ++
      (codeSs body ++ [DROP, CONTINUE]) ++ [BREAK])) →
    WfSs F bp (pc + 3 + (vint (codeSs body ++ [DROP, CONTINUE]).length).length) body →
    InLoop (some l) st vm → l.cont = pc → l.k = vm.scopes.length → InFrame b fc { st with loopAddrs := l.outer } vm →
    Above b (on vm { st with loopAddrs := l.outer }) →
    Sims E b (evalForIn E F n d k o it body) vm m (FQ vm st bp l.brk l.outer k o fc)
  ss : ∀ {d ss vm st bp pc m} (lc fc), Start b d vm st bp pc m → Placed bp pc (codeSs ss) → WfSs F bp pc ss →
    InLoop lc st vm → InFrame b fc st vm → Sims E b (evalSs E F n d ss) vm m (SQ vm st bp (pc + (codeSs ss).length) lc fc)
  rest : ∀ {d v ss vm st bp pc m} (lc fc), Ready b d vm st bp → At m vm (st.push v) bp pc → Placed bp pc (codeRest ss) →
    WfRest F bp pc ss → InLoop lc st vm → InFrame b fc st vm →
    Sims E b (evalRest E F n d v ss) vm m (SQ vm st bp (pc + (codeRest ss).length) lc fc)

end Mjs.Exec
