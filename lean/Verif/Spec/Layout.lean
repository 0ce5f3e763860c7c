import Verif.Spec.Sem
import Verif.Model.Bcode

/-!
# Scripts in memory

A function value is the address of the function's code.  `layoutSs a ss` is the script `ss` whose function literals carry
the addresses they have when the code of `ss` begins at address `a`; `funsSs` lists the functions of such a script with
their addresses.  `Loaded` describes an engine that has loaded a list of scripts.
-/

namespace Mjs.Code
open Mjs Mjs.Core Mjs.Exec Mjs.Sem

mutual
/-- The expression with the addresses its functions have when its code is at `a`. -/
def layoutE (a : Nat) : Expr → Expr
  | .get l => .get (layoutL a l)
  | .obj ps => .obj (layoutProps (a + 1) ps)
  | .arr es => .arr (layoutItems (a + 1) es)
  | .func _ name ps body =>
    let p := (match name with | none => a | some x => a + (create x).length + (pushStr x).length + 1) + 1 +
      (vint (codeFun ps body).length).length
    .func p name ps (layoutSs (p + 1 + (codeParams 0 ps).length) body)
  | .call f args => .call (layoutE a f) (layoutArgs (a + (code f).length + 1) args)
  | .un op e => .un op (layoutE a e)
  | .incr post plus l => .incr post plus (layoutL a l)
  | .bin op x y => .bin op (layoutE a x) (layoutE (a + (code x).length) y)
  | .and x y => .and (layoutE a x) (layoutE (a + (code x).length + 1 + (vint (DROP :: code y).length).length + 1) y)
  | .or x y => .or (layoutE a x) (layoutE (a + (code x).length + 1 + (vint (DROP :: code y).length).length + 1) y)
  | .cond c x y =>
    let rx := code x ++ JMP :: vint (DROP :: code y).length
    .cond (layoutE a c) (layoutE (a + (code c).length + 1 + (vint rx.length).length) x)
      (layoutE (a + (code c).length + 1 + (vint rx.length).length + rx.length + 1) y)
  | .assign op l e => .assign op (layoutL a l) (layoutE (a + (codeL l).length) e)
  | .int n => .int n
  | .dbl t => .dbl t
  | .str s => .str s
  | .tru => .tru
  | .fls => .fls
  | .null => .null
  | .undef => .undef
  | .this => .this
def layoutL (a : Nat) : Lval → Lval
  | .var x => .var x
  | .dot e x => .dot (layoutE a e) x
  | .index e k => .index (layoutE a e) (layoutE (a + (code e).length) k)
def layoutArgs (a : Nat) : List Expr → List Expr
  | [] => []
  | e :: es => layoutE a e :: layoutArgs (a + (code e).length) es
def layoutItems (a : Nat) : List Expr → List Expr
  | [] => []
  | e :: es => layoutE (a + 1) e :: layoutItems (a + 1 + (code e).length + 1) es
def layoutProps (a : Nat) : List (Name × Expr) → List (Name × Expr)
  | [] => []
  | (k, e) :: ps => (k, layoutE (a + 1 + (pushStr k).length + 1) e) ::
      layoutProps (a + 1 + (pushStr k).length + 1 + (code e).length + 3) ps
def layoutMore (a : Nat) : List Expr → List Expr
  | [] => []
  | e :: es => layoutE (a + 1) e :: layoutMore (a + 1 + (code e).length) es
def layoutLet (a : Nat) (x : Name) : Option Expr → Option Expr
  | none => none
  | some e => some (layoutE (a + (create x).length + (pushStr x).length + 1) e)
def layoutLets (a : Nat) : List (Name × Option Expr) → List (Name × Option Expr)
  | [] => []
  | (x, i) :: ds => (x, layoutLet (a + 1) x i) :: layoutLets (a + 1 + (codeLet x i).length) ds
def layoutS (a : Nat) : Stmt → Stmt
  | .empty => .empty
  | .exprs e es => .exprs (layoutE a e) (layoutMore (a + (code e).length) es)
  | .lets x i ds => .lets x (layoutLet a x i) (layoutLets (a + (codeLet x i).length) ds)
  | .block ss => .block (layoutSs (a + 1) ss)
  | .ite c s => .ite (layoutE a c) (layoutS (a + (code c).length + 1 + (vint (codeS s).length).length) s)
  | .itee c s t =>
    let rs := codeS s ++ JMP :: vint (DROP :: codeS t).length
    .itee (layoutE a c) (layoutS (a + (code c).length + 1 + (vint rs.length).length) s)
      (layoutS (a + (code c).length + 1 + (vint rs.length).length + rs.length + 1) t)
  | .while c body =>
    let rb := codeSs body ++ [DROP, CONTINUE]
    let r := (0 : UInt8) :: code c ++ JMP_FALSE :: vint rb.length ++ rb ++ [BREAK]
    .while (layoutE (a + 2 + (vint r.length).length + 1) c)
      (layoutSs (a + 2 + (vint r.length).length + 1 + (code c).length + 1 + (vint rb.length).length) body)
  | .for init c inc body =>
    let ri := code inc ++ [DROP]
    let rb := codeSs body ++ [DROP, CONTINUE]
    let rj := codeS init ++ DROP :: JMP :: vint ri.length
    let r := vint rj.length ++ rj ++ ri ++ code c ++ JMP_FALSE :: vint rb.length ++ rb ++ [BREAK]
    let p := a + 2 + (vint r.length).length + (vint rj.length).length
    .for (layoutS p init) (layoutE (p + rj.length + ri.length) c) (layoutE (p + rj.length) inc)
      (layoutSs (p + rj.length + ri.length + (code c).length + 1 + (vint rb.length).length) body)
  | .forIn isLet x e body =>
    let rb := codeSs body ++ [DROP, CONTINUE]
    let r := (0 : UInt8) :: FOR_IN_NEXT :: DUP :: JMP_FALSE :: vint rb.length ++ rb ++ [BREAK]
    let p := a + 1 + (if isLet then create x else []).length + (pushStr x).length
    .forIn isLet x (layoutE p e) (layoutSs (p + (code e).length + 2 + (vint r.length).length + 4 + (vint rb.length).length) body)
  | .break => .break
  | .continue => .continue
  | .ret none => .ret none
  | .ret (some e) => .ret (some (layoutE a e))
def layoutSs (a : Nat) : List Stmt → List Stmt
  | [] => []
  | s :: ss => layoutS a s :: layoutRest (a + (codeS s).length) ss
def layoutRest (a : Nat) : List Stmt → List Stmt
  | [] => []
  | s :: ss => layoutS (a + 1) s :: layoutRest (a + 1 + (codeS s).length) ss
end

mutual
/-- The functions of an expression, with their addresses. -/
def funsE : Expr → List (Nat × Fn)
  | .get l => funsL l
  | .obj ps => funsProps ps
  | .arr es => funsEs es
  | .func label _ ps body => (label, ⟨ps, body⟩) :: funsSs body
  | .call f args => funsE f ++ funsEs args
  | .un _ e => funsE e
  | .incr _ _ l => funsL l
  | .bin _ x y => funsE x ++ funsE y
  | .and x y => funsE x ++ funsE y
  | .or x y => funsE x ++ funsE y
  | .cond c x y => funsE c ++ funsE x ++ funsE y
  | .assign _ l e => funsL l ++ funsE e
  | _ => []
def funsL : Lval → List (Nat × Fn)
  | .var _ => []
  | .dot e _ => funsE e
  | .index e k => funsE e ++ funsE k
def funsEs : List Expr → List (Nat × Fn)
  | [] => []
  | e :: es => funsE e ++ funsEs es
def funsProps : List (Name × Expr) → List (Nat × Fn)
  | [] => []
  | (_, e) :: ps => funsE e ++ funsProps ps
def funsO : Option Expr → List (Nat × Fn)
  | none => []
  | some e => funsE e
def funsLets : List (Name × Option Expr) → List (Nat × Fn)
  | [] => []
  | (_, i) :: ds => funsO i ++ funsLets ds
def funsS : Stmt → List (Nat × Fn)
  | .empty => []
  | .exprs e es => funsE e ++ funsEs es
  | .lets _ i ds => funsO i ++ funsLets ds
  | .block ss => funsSs ss
  | .ite c s => funsE c ++ funsS s
  | .itee c s t => funsE c ++ funsS s ++ funsS t
  | .while c body => funsE c ++ funsSs body
  | .for init c inc body => funsS init ++ funsE inc ++ funsE c ++ funsSs body
  | .forIn _ _ e body => funsE e ++ funsSs body
  | .break => []
  | .continue => []
  | .ret i => funsO i
/-- The functions of a list of statements. -/
def funsSs : List Stmt → List (Nat × Fn)
  | [] => []
  | s :: ss => funsS s ++ funsSs ss
end

mutual
/-- Numerals are what the parser makes of the numerals of a source: numbers below 2^64, and texts `strtod` reads completely. -/
def NumE : Expr → Prop
  | .int n => n < 2 ^ 64
  | .dbl t => Tok.strtodLen t = t.length
  | .get l => NumL l
  | .obj ps => NumProps ps
  | .arr es => NumEs es
  | .func _ _ _ body => NumSs body
  | .call f args => NumE f ∧ NumEs args
  | .un _ e => NumE e
  | .incr _ _ l => NumL l
  | .bin _ x y => NumE x ∧ NumE y
  | .and x y => NumE x ∧ NumE y
  | .or x y => NumE x ∧ NumE y
  | .cond c x y => NumE c ∧ NumE x ∧ NumE y
  | .assign _ l e => NumL l ∧ NumE e
  | _ => True
def NumL : Lval → Prop
  | .var _ => True
  | .dot e _ => NumE e
  | .index e k => NumE e ∧ NumE k
def NumEs : List Expr → Prop
  | [] => True
  | e :: es => NumE e ∧ NumEs es
def NumProps : List (Name × Expr) → Prop
  | [] => True
  | (_, e) :: ps => NumE e ∧ NumProps ps
def NumO : Option Expr → Prop
  | none => True
  | some e => NumE e
def NumLets : List (Name × Option Expr) → Prop
  | [] => True
  | (_, i) :: ds => NumO i ∧ NumLets ds
def NumS : Stmt → Prop
  | .empty => True
  | .exprs e es => NumE e ∧ NumEs es
  | .lets _ i ds => NumO i ∧ NumLets ds
  | .block ss => NumSs ss
  | .ite c s => NumE c ∧ NumS s
  | .itee c s t => NumE c ∧ NumS s ∧ NumS t
  | .while c body => NumE c ∧ NumSs body
  | .for init c inc body => NumS init ∧ NumE c ∧ NumE inc ∧ NumSs body
  | .forIn _ _ e body => NumE e ∧ NumSs body
  | .break => True
  | .continue => True
  | .ret i => NumO i
def NumSs : List Stmt → Prop
  | [] => True
  | s :: ss => NumS s ∧ NumSs ss
end

/-- A script: file name, statements, and the line map the parser made for it. -/
structure Script where
  path : List UInt8
  body : List Stmt
  map : List UInt8

/-- Where the code begins in a script. -/
def Script.start (s : Script) : Nat := 14 + s.path.length

/-- The script as the engine keeps it. -/
def Script.bytes (s : Script) : List UInt8 := Bcode.assemble s.path (codeScript s.body) s.map

/-- The scripts one after the other, from address `a`. -/
def PartsFrom (a : Nat) : List Script → List Part → Prop
  | [], [] => True
  | s :: ss, p :: ps => p.startIdx = a ∧ p.data = s.bytes ∧ PartsFrom (a + s.bytes.length) ss ps
  | _, _ => False

/-- The functions of the scripts. -/
def funsFrom (a : Nat) : List Script → List (Nat × Fn)
  | [] => []
  | s :: ss => funsSs (layoutSs (a + s.start) s.body) ++ funsFrom (a + s.bytes.length) ss

/-- The function at an address. -/
def fnAt (l : List (Nat × Fn)) (a : Nat) : Option Fn := (l.find? fun p => p.1 == a).map (·.2)

/-- The engine has loaded these scripts, and together they are below 2 GB. -/
structure Loaded (vm : Vm) (ss : List Script) : Prop where
  parts : PartsFrom 0 ss vm.parts
  len : vm.bcodeLen = (ss.map fun s => s.bytes.length).sum
  small : vm.bcodeLen < 2 ^ 31 - 1
  nums : ∀ s ∈ ss, NumSs s.body

/-- The stacks have room for `d` levels of nesting before their lengths leave the range of `int`. -/
structure Room (vm : Vm) (d : Nat) : Prop where
  stack : vm.stack.length + 16 * d < 2 ^ 31 - 64
  callStack : vm.callStack.length + 16 * d < 2 ^ 31 - 64
  argStack : vm.argStack.length + 16 * d < 2 ^ 31 - 64
  loopAddrs : vm.loopAddrs.length + 16 * d < 2 ^ 31 - 64
  scopes : vm.scopes.length + 16 * d < 2 ^ 31 - 64

/-- What a script of a loaded program means: the evaluation of its statements, where function values are those of the
program. -/
def evalScript (E : Env) [Natives E] (ss : List Script) (n d : Nat) (p : Part) (s : Script) : Sem Comp :=
  evalSs E (fnAt (funsFrom 0 ss)) n d (layoutSs (p.startIdx + s.start) s.body)

/-- The same data, call, argument, scope and loop stacks. -/
structure SameStacks (a b : Vm) : Prop where
  stack : a.stack = b.stack
  callStack : a.callStack = b.callStack
  argStack : a.argStack = b.argStack
  scopes : a.scopes = b.scopes
  loopAddrs : a.loopAddrs = b.loopAddrs

/-- The same loaded code (each part also records the outcome of its last execution, which may differ). -/
structure SameCode (a b : Vm) : Prop where
  len : a.bcodeLen = b.bcodeLen
  parts : a.parts.map (fun p => (p.startIdx, p.data)) = b.parts.map (fun p => (p.startIdx, p.data))

/-- Part number `k` of the engine is script `s` of the program. -/
structure IsScript (vm : Vm) (ss : List Script) (k : Nat) (p : Part) (s : Script) : Prop where
  part : vm.parts[k]? = some p
  script : ss[k]? = some s

end Mjs.Code
