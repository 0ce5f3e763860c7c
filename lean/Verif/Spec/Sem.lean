import Verif.Model.Code

/-!
# What programs mean

A big-step semantics of the language, without code addresses, jumps or a data stack: an evaluator over the syntax tree.
It works on the parts of the engine state that a script can observe (objects, scopes, `this`, the error); the data, call,
argument and loop stacks in a `Vm` play no role here.  Operators and property accesses are those of the engine
(`Mjs.Exec.doOp`, `getProp`, ...), which have their own properties.

Two numbers make the evaluator total: `n` bounds the number of steps, `d` the nesting.  A program means something if there
is an answer for some `n` and `d`; `none` means no answer within these bounds, or undefined behaviour, or something this
semantics leaves open: the `this` of a call like `(a || b)()`, `break` and `continue` that leave a function.  What a call of a
C function does is a parameter (`Natives`); by default it is left open, too.

Functions are not closures in this language: a function sees the scopes of its caller.
-/

namespace Mjs.Sem
open Mjs Mjs.Str Mjs.Obj Mjs.Core Mjs.Exec Mjs.Code

/-- The outcome of an evaluation: a value, or an error. -/
inductive Out (α : Type) where
  | ok (vm : Vm) (a : α)
  | err (vm : Vm)

def Sem (α : Type) : Type := Vm → Option (Out α)

/-- One thing after the other; an error ends the evaluation. -/
def Sem.bind {α β : Type} (x : Sem α) (f : α → Sem β) : Sem β := fun vm =>
  match x vm with
  | none => none
  | some (.err vm) => some (.err vm)
  | some (.ok vm a) => f a vm

instance : Monad Sem where
  pure a := fun vm => some (.ok vm a)
  bind := Sem.bind

/-- An operation of the engine, which may set an error. -/
def prim {α : Type} (f : Vm → Option (Vm × α)) : Sem α := fun vm =>
  (f vm).map fun r => if r.1.error = .ok then .ok r.1 r.2 else .err r.1

/-- No answer. -/
def undefinedBehaviour {α : Type} : Sem α := fun _ => none

def current : Sem Vm := fun vm => some (.ok vm vm)
def setScopes (s : List Val) : Sem Unit := fun vm => some (.ok { vm with scopes := s } ())
def setThis (v : Val) : Sem Unit := fun vm => some (.ok { vm with this := v } ())
def setLast (v : Val) : Sem Unit := fun vm => some (.ok { vm with lastGetprop := v } ())
/-- Whether a value counts as true. -/
def truthy (v : Val) : Sem Bool := prim fun vm => (isTruthy vm.heap.str v).map fun b => (vm, b)
def raise {α : Type} (e : Err) (text : String) : Sem α := fun vm => some (.err (setErrorf vm e (some (txt text))))

/-- A function: parameters and body. -/
structure Fn where
  params : List Name
  body : List Stmt

/-- How a statement ends: with a value, or by `break`, `continue`, `return`. -/
inductive Comp where
  | normal (v : Val)
  | brk
  | cont
  | ret (v : Val)

/-- Unary operators. -/
def unary (op : UnOp) (v : Val) : Sem Val :=
  match op with
  | .not => do
    let b ← truthy v
    pure (mkBoolean !b)
  | .minus => pure (mkNumber (negD (getDouble v)))
  | .plus => pure v
  | .tilda => pure (mkNumber (ofIntD (-toI64 (getDouble v) - 1)))
  | .typeof => prim fun vm => (getType v).bind fun t => mkStr vm (typeName t)

/-- Binary operators. -/
def binary (E : Env) (op : BinOp) (a b : Val) : Sem Val :=
  match op with
  | .eq => raise .notImplemented "Use ===, not =="
  | .ne => raise .notImplemented "Use !==, not !="
  | .eqq => prim fun vm => (checkEqual vm.heap.str b a).map fun r => (vm, mkBoolean r)
  | .nee => prim fun vm => (checkEqual vm.heap.str b a).map fun r => (vm, mkBoolean !r)
  | .lt => pure (mkBoolean (ltD (getDouble a) (getDouble b)))
  | .le => pure (mkBoolean (leD (getDouble a) (getDouble b)))
  | .gt => pure (mkBoolean (ltD (getDouble b) (getDouble a)))
  | .ge => pure (mkBoolean (leD (getDouble b) (getDouble a)))
  | .add => prim fun vm => doOp E vm a b Tok.PLUS
  | .sub => prim fun vm => doOp E vm a b Tok.MINUS
  | .mul => prim fun vm => doOp E vm a b Tok.MUL
  | .div => prim fun vm => doOp E vm a b Tok.DIV
  | .rem => prim fun vm => doOp E vm a b Tok.REM
  | .shl => prim fun vm => doOp E vm a b Tok.LSHIFT
  | .shr => prim fun vm => doOp E vm a b Tok.RSHIFT
  | .ushr => prim fun vm => doOp E vm a b Tok.URSHIFT
  | .band => prim fun vm => doOp E vm a b Tok.AND
  | .bxor => prim fun vm => doOp E vm a b Tok.XOR
  | .bor => prim fun vm => doOp E vm a b Tok.OR

/-- The arithmetic operator of a compound assignment. -/
def arithTok : BinOp → Option Nat
  | .add => some Tok.PLUS
  | .sub => some Tok.MINUS
  | .mul => some Tok.MUL
  | .div => some Tok.DIV
  | .rem => some Tok.REM
  | .shl => some Tok.LSHIFT
  | .shr => some Tok.RSHIFT
  | .ushr => some Tok.URSHIFT
  | .band => some Tok.AND
  | .bxor => some Tok.XOR
  | .bor => some Tok.OR
  | _ => none

/-- A result that is there unless an error is set. -/
def withValue (r : Option (Vm × Option Val)) : Option (Vm × Val) := r.map fun x => (x.1, x.2.getD mkUndefined)

/-- Assignment of `v` to the property `p.1` of `p.2`; a compound assignment has the old value as its value. -/
def store (E : Env) (op : AssignOp) (p : Val × Val) (v : Val) : Sem Val :=
  match op with
  | none => prim fun vm => assign E vm v p.2 p.1
  | some op =>
    match arithTok op with
    | some t => prim fun vm => withValue (opAssign E vm t v p.2 p.1)
    | none => undefinedBehaviour

/-- A string. -/
def string (bs : List UInt8) : Sem Val := prim fun vm => mkStr vm bs

/-- Entering a new scope. -/
def enterScope : Sem Unit := do
  let o ← prim mkObj
  let vm ← current
  setScopes (vm.scopes ++ [o])

/-- `let x`: the name exists in the current scope afterwards. -/
def declare (E : Env) (x : Name) : Sem Unit := do
  let k ← string x
  prim fun vm => if vm.scopes.length > 0 then (createIn E vm (vtop vm.scopes) k).map fun vm => (vm, ()) else none

/-- The variable `x`: its name and the scope that has it. -/
def resolve (E : Env) (x : Name) : Sem (Val × Val) := do
  let k ← string x
  let s ← prim fun vm => findScope E vm k
  pure (k, s)

/-- The parameters of a call, from number `i`, become variables of the function's scope. -/
def bindParams (E : Env) (args : List Val) (i : Nat) : List Name → Sem Unit
  | [] => pure ()
  | p :: ps => do
    prim fun vm => do
      let (vm, k) ← mkStr vm p
      let vm ← setVm E vm (vtop vm.scopes) k (args.getD i mkUndefined)
      some (vm, ())
    bindParams E args (i + 1) ps

/-- The object a method is taken from: a variable has none. -/
def receiver : Lval → Val → Val
  | .var _, _ => mkUndefined
  | _, o => o

/-- `this` in a call: the object for a method call, undefined for others. -/
def calleeThis : Expr → Sem Val
  | .get _ => do
    let vm ← current
    pure vm.lastGetprop
  | .and _ _ => undefinedBehaviour
  | .or _ _ => undefinedBehaviour
  | .cond _ _ _ => undefinedBehaviour
  | _ => do
    setLast mkUndefined
    pure mkUndefined

/-! ## Functions written in C

What a C function does with `this` and its arguments is no part of the language.  It is given for each function value (`run`).
What ties it to the code is `ok` and `err`: wherever the stacks stand when the engine calls the function, its code finds the
arguments on top, and ends with a value in their place and the error that `run` says.  A C function that changes the loaded
code or leaves another scope behind is not covered; for such a function `run` gives no answer. -/

/-- Values whose calls run C code: C functions and imported functions (a string is called like an imported function). -/
def isNative (f : Val) : Bool := isString f || isFfiSig f || isForeign f

/-- The C code that is run for them. -/
def native (E : Env) (f : Val) (vm : Vm) : Option Vm := if isForeign f then E.cfun (getPtr f).toNat vm else E.ffi vm

/-- Stacks in the middle of a call, without the called value and the arguments. -/
structure CallAt where
  stack : List Val
  frames : List Val
  argStack : List Val
  loopAddrs : List Val
  parts : List Part
  bcodeLen : Nat

/-- The engine `vm` with these stacks and `top` on the stack of values.  The call stack ends with the place of the result. -/
def CallAt.put (k : CallAt) (vm : Vm) (top : List Val) : Vm :=
  { vm with
    stack := k.stack ++ top, callStack := k.frames ++ [mkInt (k.stack.length + 1 : Nat)], argStack := k.argStack
    loopAddrs := k.loopAddrs, parts := k.parts, bcodeLen := k.bcodeLen }

/-- The lengths are in the range of `int`, with `n` arguments. -/
structure CallAt.Fits (k : CallAt) (n : Nat) : Prop where
  stack : k.stack.length + n + 1 < 2 ^ 31 - 1
  frames : k.frames.length + 1 < 2 ^ 31 - 1

/-- Meanings of the C functions of `E`. -/
class Natives (E : Env) where
  run : Val → List Val → Sem Val
  ok : ∀ {f args vm vm' v}, run f args vm = some (.ok vm' v) → vm.error = .ok →
    vm'.error = .ok ∧ vm'.scopes = vm.scopes ∧
      ∀ k : CallAt, k.Fits args.length → native E f (k.put vm (f :: args)) = some (k.put vm' [v])
  err : ∀ {f args vm vm'}, run f args vm = some (.err vm') → vm.error = .ok →
    vm'.error ≠ .ok ∧ vm'.scopes = vm.scopes ∧
      ∀ k : CallAt, k.Fits args.length → ∃ x, native E f (k.put vm (f :: args)) = some (k.put vm' [x])

/-- No C function has a meaning: what follows is then about scripts that call none. -/
@[reducible] def Natives.none (E : Env) : Natives E where
  run _ _ := undefinedBehaviour
  ok h := by cases h
  err h := by cases h

/-- `x` with another `this`; afterwards, also after an error, `this` is as before. -/
def withThis {α : Type} (t : Val) (x : Sem α) : Sem α := fun vm =>
  (x { vm with this := t }).map fun o => match o with
    | .ok vm' a => .ok { vm' with this := vm.this } a
    | .err vm' => .err { vm' with this := vm.this }

mutual
/-- The value of an expression. -/
def eval (E : Env) [Natives E] (F : Nat → Option Fn) : Nat → Nat → Expr → Sem Val
  | 0, _, _ => undefinedBehaviour
  | _, 0, _ => undefinedBehaviour
  | _ + 1, _ + 1, .int n => pure (mkInt (BitVec.ofNat 64 n).toInt)
  | _ + 1, _ + 1, .dbl t => pure (mkNumber (E.numVal t))
  | _ + 1, _ + 1, .str bs => string bs
  | _ + 1, _ + 1, .tru => pure (mkBoolean true)
  | _ + 1, _ + 1, .fls => pure (mkBoolean false)
  | _ + 1, _ + 1, .null => pure mkNull
  | _ + 1, _ + 1, .undef => pure mkUndefined
  | _ + 1, _ + 1, .this => do
    let vm ← current
    pure vm.this
  | n + 1, d + 1, .get l => do
    let (k, o) ← evalL E F n d l
    let v ← prim fun vm => getProp E vm o k
    setLast (receiver l o)
    pure v
  | n + 1, d + 1, .obj ps => do
    let o ← prim mkObj
    evalProps E F n d o ps
    pure o
  | n + 1, d + 1, .arr es => do
    let a ← prim mkArr
    evalItems E F n d a es
    pure a
  | _ + 1, _ + 1, .func label none _ _ => pure (mkFunction (BitVec.ofNat 64 label))
  | _ + 1, _ + 1, .func label (some x) _ _ => do
    declare E x
    let p ← resolve E x
    store E none p (mkFunction (BitVec.ofNat 64 label))
  | n + 1, d + 1, .call f args => do
    let fv ← eval E F n d f
    let t ← calleeThis f
    let vs ← evalArgs E F n d args
    callFn E F n (d - vs.length) fv t vs
  | n + 1, d + 1, .un op e => do
    let v ← eval E F n d e
    unary op v
  | n + 1, d + 1, .incr post plus l => do
    let (k, o) ← evalL E F n d l
    prim fun vm => withValue (incr E vm post (if plus then Tok.PLUS else Tok.MINUS) o k)
  | n + 1, d + 1, .bin op a b => do
    let x ← eval E F n d a
    let y ← eval E F n d b
    binary E op x y
  | n + 1, d + 1, .and a b => do
    let x ← eval E F n d a
    if ← truthy x then eval E F n d b else pure x
  | n + 1, d + 1, .or a b => do
    let x ← eval E F n d a
    if ← truthy x then pure x else eval E F n d b
  | n + 1, d + 1, .cond c a b => do
    let x ← eval E F n d c
    if ← truthy x then eval E F n d a else eval E F n d b
  | n + 1, d + 1, .assign op l e => do
    let p ← evalL E F n d l
    let v ← eval E F n d e
    store E op p v
/-- Key and object of what is assigned to or read. -/
def evalL (E : Env) [Natives E] (F : Nat → Option Fn) : Nat → Nat → Lval → Sem (Val × Val)
  | 0, _, _ => undefinedBehaviour
  | _, 0, _ => undefinedBehaviour
  | _ + 1, _ + 1, .var x => resolve E x
  | n + 1, d + 1, .dot e x => do
    let o ← eval E F n d e
    let k ← string x
    pure (k, o)
  | n + 1, d + 1, .index e k => do
    let o ← eval E F n d e
    let v ← eval E F n d k
    pure (v, o)
/-- Arguments, left to right. -/
def evalArgs (E : Env) [Natives E] (F : Nat → Option Fn) : Nat → Nat → List Expr → Sem (List Val)
  | 0, _, _ => undefinedBehaviour
  | _, 0, _ => undefinedBehaviour
  | _ + 1, _ + 1, [] => pure []
  | n + 1, d + 1, e :: es => do
    let v ← eval E F n d e
    let vs ← evalArgs E F n d es
    pure (v :: vs)
/-- Items of an array literal are appended to `a`. -/
def evalItems (E : Env) [Natives E] (F : Nat → Option Fn) : Nat → Nat → Val → List Expr → Sem Unit
  | 0, _, _, _ => undefinedBehaviour
  | _, 0, _, _ => undefinedBehaviour
  | _ + 1, _ + 1, _, [] => pure ()
  | n + 1, d + 1, a, e :: es => do
    let v ← eval E F n d e
    prim fun vm => (append vm a v).map fun vm => (vm, ())
    evalItems E F n (d + 1) a es
/-- Members of an object literal are assigned to `o`. -/
def evalProps (E : Env) [Natives E] (F : Nat → Option Fn) : Nat → Nat → Val → List (Name × Expr) → Sem Unit
  | 0, _, _, _ => undefinedBehaviour
  | _, 0, _, _ => undefinedBehaviour
  | _ + 1, _ + 1, _, [] => pure ()
  | n + 1, d + 1, o, (x, e) :: ps => do
    let k ← string x
    let v ← eval E F n d e
    let _ ← prim fun vm => assign E vm v o k
    evalProps E F n (d + 1) o ps
/-- A call of `f`: `this`, scopes and loops of the caller are as before afterwards. -/
def callFn (E : Env) [Natives E] (F : Nat → Option Fn) : Nat → Nat → Val → Val → List Val → Sem Val
  | 0, _, _, _, _ => undefinedBehaviour
  | _, 0, _, _, _ => undefinedBehaviour
  | n + 1, d + 1, f, t, args =>
    if isFunction f then
      match F (getFuncAddr f).toNat with
      | none => undefinedBehaviour
      | some fn => do
        let vm ← current
        setThis t
        enterScope
        bindParams E args 0 fn.params
        let c ← evalSs E F n d fn.body
        setScopes vm.scopes
        setThis vm.this
        match c with
        | .normal _ => pure mkUndefined
        | .ret v => pure v
        | _ => undefinedBehaviour
    else if isNative f then withThis t (Natives.run E f args)
    else raise .type "calling non-callable"
/-- The completion of a statement. -/
def evalS (E : Env) [Natives E] (F : Nat → Option Fn) : Nat → Nat → Stmt → Sem Comp
  | 0, _, _ => undefinedBehaviour
  | _, 0, _ => undefinedBehaviour
  | _ + 1, _ + 1, .empty => pure (.normal mkUndefined)
  | n + 1, d + 1, .exprs e es => do
    let v ← eval E F n d e
    evalMore E F n d v es
  | n + 1, d + 1, .lets x i ds => do
    let v ← evalLet E F n d x i
    evalLets E F n d v ds
  | n + 1, d + 1, .block ss => do
    let vm ← current
    enterScope
    let c ← evalSs E F n d ss
    setScopes vm.scopes
    pure c
  | n + 1, d + 1, .ite c s => do
    let v ← eval E F n d c
    if ← truthy v then evalS E F n d s else pure (.normal mkUndefined)
  | n + 1, d + 1, .itee c s t => do
    let v ← eval E F n d c
    if ← truthy v then evalS E F n d s else evalS E F n d t
  | n + 1, d + 1, .while c body => do
    let vm ← current
    enterScope
    let r ← evalWhile E F n d c body
    setScopes vm.scopes
    pure r
  | n + 1, d + 1, .for init c inc body => do
    let vm ← current
    enterScope
    let i ← evalS E F n d init
    match i with
    | .normal _ => do
      let r ← evalFor E F n d c inc body
      setScopes vm.scopes
      pure r
    | _ => undefinedBehaviour
  | n + 1, d + 1, .forIn isLet x e body => do
    let vm ← current
    enterScope
    if isLet then declare E x
    let k ← string x
    let o ← eval E F n d e
    let r ← evalForIn E F n d k o mkUndefined body
    setScopes vm.scopes
    pure r
  | _ + 1, _ + 1, .break => pure .brk
  | _ + 1, _ + 1, .continue => pure .cont
  | _ + 1, _ + 1, .ret none => pure (.ret mkUndefined)
  | n + 1, d + 1, .ret (some e) => do
    let v ← eval E F n d e
    pure (.ret v)
/-- The value of the last of some expressions; `v` is the value of the one before. -/
def evalMore (E : Env) [Natives E] (F : Nat → Option Fn) : Nat → Nat → Val → List Expr → Sem Comp
  | 0, _, _, _ => undefinedBehaviour
  | _, 0, _, _ => undefinedBehaviour
  | _ + 1, _ + 1, v, [] => pure (.normal v)
  | n + 1, d + 1, _, e :: es => do
    let v ← eval E F n d e
    evalMore E F n (d + 1) v es
/-- One declaration of `let`. -/
def evalLet (E : Env) [Natives E] (F : Nat → Option Fn) : Nat → Nat → Name → Option Expr → Sem Val
  | 0, _, _, _ => undefinedBehaviour
  | _, 0, _, _ => undefinedBehaviour
  | _ + 1, _ + 1, x, none => do
    declare E x
    pure mkUndefined
  | n + 1, d + 1, x, some e => do
    declare E x
    let p ← resolve E x
    let v ← eval E F n d e
    store E none p v
/-- Further declarations; `v` is the value of the one before. -/
def evalLets (E : Env) [Natives E] (F : Nat → Option Fn) : Nat → Nat → Val → List (Name × Option Expr) → Sem Comp
  | 0, _, _, _ => undefinedBehaviour
  | _, 0, _, _ => undefinedBehaviour
  | _ + 1, _ + 1, v, [] => pure (.normal v)
  | n + 1, d + 1, _, (x, i) :: ds => do
    let v ← evalLet E F n d x i
    evalLets E F n (d + 1) v ds
/-- `while`: as long as the condition is true. -/
def evalWhile (E : Env) [Natives E] (F : Nat → Option Fn) : Nat → Nat → Expr → List Stmt → Sem Comp
  | 0, _, _, _ => undefinedBehaviour
  | _, 0, _, _ => undefinedBehaviour
  | n + 1, d + 1, c, body => do
    let v ← eval E F n d c
    if ← truthy v then do
      let r ← evalSs E F n d body
      match r with
      | .normal _ => evalWhile E F n (d + 1) c body
      | .cont => evalWhile E F n (d + 1) c body
      | .brk => pure (.normal mkUndefined)
      | .ret v => pure (.ret v)
    else pure (.normal mkUndefined)
/-- `for` after its first part: condition, body, increment. -/
def evalFor (E : Env) [Natives E] (F : Nat → Option Fn) : Nat → Nat → Expr → Expr → List Stmt → Sem Comp
  | 0, _, _, _, _ => undefinedBehaviour
  | _, 0, _, _, _ => undefinedBehaviour
  | n + 1, d + 1, c, inc, body => do
    let v ← eval E F n d c
    if ← truthy v then do
      let r ← evalSs E F n d body
      match r with
      | .normal _ => do
        let _ ← eval E F n d inc
        evalFor E F n (d + 1) c inc body
      | .cont => do
        let _ ← eval E F n d inc
        evalFor E F n (d + 1) c inc body
      | .brk => pure (.normal mkUndefined)
      | .ret v => pure (.ret v)
    else pure (.normal mkUndefined)
/-- `for .. in`: the body runs once for each property the iterator finds; the value is the name of the variable. -/
def evalForIn (E : Env) [Natives E] (F : Nat → Option Fn) : Nat → Nat → Val → Val → Val → List Stmt → Sem Comp
  | 0, _, _, _, _, _ => undefinedBehaviour
  | _, 0, _, _, _, _ => undefinedBehaviour
  | n + 1, d + 1, k, o, it, body => do
    let it ← prim fun vm => forInStep E vm k o it
    if ← truthy it then do
      let r ← evalSs E F n d body
      match r with
      | .normal _ => evalForIn E F n (d + 1) k o it body
      | .cont => evalForIn E F n (d + 1) k o it body
      | .brk => pure (.normal k)
      | .ret v => pure (.ret v)
    else pure (.normal k)
/-- A list of statements: one after the other; the value of the last. -/
def evalSs (E : Env) [Natives E] (F : Nat → Option Fn) : Nat → Nat → List Stmt → Sem Comp
  | 0, _, _ => undefinedBehaviour
  | _, 0, _ => undefinedBehaviour
  | _ + 1, _ + 1, [] => pure (.normal mkUndefined)
  | n + 1, d + 1, s :: ss => do
    let c ← evalS E F n d s
    match c with
    | .normal v => evalRest E F n d v ss
    | c => pure c
/-- Statements after the first; `v` is the value of the one before. -/
def evalRest (E : Env) [Natives E] (F : Nat → Option Fn) : Nat → Nat → Val → List Stmt → Sem Comp
  | 0, _, _, _ => undefinedBehaviour
  | _, 0, _, _ => undefinedBehaviour
  | _ + 1, _ + 1, v, [] => pure (.normal v)
  | n + 1, d + 1, _, s :: ss => do
    let c ← evalS E F n d s
    match c with
    | .normal v => evalRest E F n (d + 1) v ss
    | c => pure c
end

end Mjs.Sem
