import Verif.Model.Exec

/-!
The operations of the engine on values do not touch the stacks: they change objects, strings and the error, and see of the
rest of the engine only the scopes.
-/

namespace Mjs.Exec
open Mjs Mjs.Str Mjs.Obj Mjs.Core

/-- The engine `c`, with objects, strings, allocator and error of `vm`. -/
def put (vm c : Vm) : Vm := { c with heap := vm.heap, al := vm.al, error := vm.error, msg := vm.msg }

@[simp] theorem put_heap (vm c : Vm) : (put vm c).heap = vm.heap := rfl
@[simp] theorem put_al (vm c : Vm) : (put vm c).al = vm.al := rfl
@[simp] theorem put_error (vm c : Vm) : (put vm c).error = vm.error := rfl
@[simp] theorem put_msg (vm c : Vm) : (put vm c).msg = vm.msg := rfl
@[simp] theorem put_scopes (vm c : Vm) : (put vm c).scopes = c.scopes := rfl
@[simp] theorem put_self (vm : Vm) : put vm vm = vm := rfl
@[simp] theorem put_put (vm c c' : Vm) : put (put vm c) c' = put vm c' := rfl

/-- Replace the engine in a result. -/
def mapPut {α : Type} (c : Vm) (r : Option (Vm × α)) : Option (Vm × α) := r.map fun x => (put x.1 c, x.2)

/-- An operation that leaves everything but objects, strings and the error as it was, and of the rest sees only the
scopes. -/
def Local {α : Type} (f : Vm → Option (Vm × α)) : Prop :=
  ∀ vm c, c.scopes = vm.scopes → f (put vm c) = mapPut c (f vm)

/-- The same for operations without a result. -/
def Local0 (f : Vm → Option Vm) : Prop :=
  ∀ vm c, c.scopes = vm.scopes → f (put vm c) = (f vm).map fun x => put x c

@[simp] theorem put_setErrorf (vm c : Vm) (e : Err) (m : Option (List UInt8)) :
    setErrorf (put vm c) e m = put (setErrorf vm e m) c := rfl
@[simp] theorem put_prepend (vm c : Vm) (e : Err) (m : List UInt8) : prepend (put vm c) e m = put (prepend vm e m) c := rfl
@[simp] theorem put_used (vm c : Vm) (n : Nat) : used (put vm c) n = put (used vm n) c := rfl

@[simp] theorem scopes_setErrorf (vm : Vm) (e : Err) (m : Option (List UInt8)) : (setErrorf vm e m).scopes = vm.scopes := rfl
@[simp] theorem scopes_prepend (vm : Vm) (e : Err) (m : List UInt8) : (prepend vm e m).scopes = vm.scopes := rfl

/-- The rest of the engine is as before. -/
theorem Local.same {α : Type} {f : Vm → Option (Vm × α)} (h : Local f) {vm vm1 : Vm} {a : α} (e : f vm = some (vm1, a)) :
    vm1 = put vm1 vm := by
  have := h vm vm rfl
  rw [put_self, e] at this
  simp only [mapPut, Option.map_some, Option.some.injEq, Prod.mk.injEq] at this
  exact this.1

theorem Local0.same {f : Vm → Option Vm} (h : Local0 f) {vm vm1 : Vm} (e : f vm = some vm1) : vm1 = put vm1 vm := by
  have := h vm vm rfl
  rw [put_self, e] at this
  simpa using this

theorem Local.scopes {α : Type} {f : Vm → Option (Vm × α)} (h : Local f) {vm vm1 : Vm} {a : α} (e : f vm = some (vm1, a)) :
    vm1.scopes = vm.scopes := by rw [h.same e]; rfl

theorem Local0.scopes {f : Vm → Option Vm} (h : Local0 f) {vm vm1 : Vm} (e : f vm = some vm1) : vm1.scopes = vm.scopes := by
  rw [h.same e]; rfl

theorem Local0.lift {f : Vm → Option Vm} (h : Local0 f) : Local fun vm => (f vm).map fun x => (x, ()) := by
  intro vm c hc
  simp only [h vm c hc, mapPut, Option.map_map]
  rfl

/-- One after the other. -/
theorem Local.bind {α β : Type} {f : Vm → Option (Vm × α)} {g : α → Vm → Option (Vm × β)} (hf : Local f)
    (hg : ∀ a, Local (g a)) : Local fun vm => (f vm).bind fun r => g r.2 r.1 := by
  intro vm c hc
  simp only [hf vm c hc]
  cases e : f vm with
  | none => rfl
  | some r =>
    obtain ⟨vm1, a⟩ := r
    simp only [mapPut, Option.map_some, Option.bind_some]
    exact hg a vm1 c (by rw [hc, hf.scopes e])

theorem Local0.bind {β : Type} {f : Vm → Option Vm} {g : Vm → Option (Vm × β)} (hf : Local0 f) (hg : Local g) :
    Local fun vm => (f vm).bind g := by
  intro vm c hc
  simp only [hf vm c hc]
  cases e : f vm with
  | none => rfl
  | some vm1 =>
    simp only [mapPut, Option.map_some, Option.bind_some]
    exact hg vm1 c (by rw [hc, hf.scopes e])

theorem Local.map {α β : Type} {f : Vm → Option (Vm × α)} (k : α → β) (hf : Local f) :
    Local fun vm => (f vm).map fun r => (r.1, k r.2) := by
  intro vm c hc
  simp only [hf vm c hc, mapPut, Option.map_map]
  rfl

theorem Local.forget {α : Type} {f : Vm → Option (Vm × α)} (hf : Local f) : Local0 fun vm => (f vm).map fun r => r.1 := by
  intro vm c hc
  simp only [hf vm c hc, mapPut, Option.map_map]
  rfl

/-! ## The operations -/

theorem mkObj_local : Local mkObj := by
  intro vm c _
  simp only [mkObj, mapPut, put_heap, put_al, put_used, Option.map_map]
  rfl

theorem mkArr_local : Local mkArr := by
  intro vm c _
  simp only [mkArr, mapPut, put_heap, put_al, put_used, Option.map_map]
  rfl

theorem mkStrP_local (p : Ptr) (n : Nat) : Local fun vm => mkStrP vm p n := by
  intro vm c _
  simp only [mkStrP, mapPut, put_heap, put_al, put_used, Option.map_map]
  rfl

theorem mkStr_local (bs : List UInt8) : Local fun vm => mkStr vm bs := mkStrP_local _ _

theorem concat_local (a b : Val) : Local fun vm => concat vm a b := by
  intro vm c _
  simp only [concat, mapPut, put_heap, put_al, put_used, Option.map_map]
  rfl

theorem keyErr_local (E : Env) (key : Val) : Local0 fun vm => keyErr E vm key := by
  intro vm c _
  simp only [keyErr, put_heap, Option.map_map]
  congr 1
  funext r
  simp only [Function.comp]
  cases r <;> rfl

theorem getVm_local (E : Env) (obj key : Val) : Local fun vm => getVm E vm obj key := by
  refine (keyErr_local E key).bind (g := fun vm1 => (getV E.numText vm1.heap obj key).bind fun v => some (vm1, v)) ?_
  intro vm c _
  simp only [put_heap, mapPut]
  cases getV E.numText vm.heap obj key <;> rfl

theorem setVm_local (E : Env) (obj key val : Val) : Local0 fun vm => setVm E vm obj key val := by
  intro vm c hc
  simp only [setVm, Option.bind_eq_bind]
  rw [show keyErr E (put vm c) key = (keyErr E vm key).map (fun x => put x c) from keyErr_local E key vm c hc]
  cases keyErr E vm key with
  | none => rfl
  | some vm1 =>
    simp only [Option.map_some, Option.bind_some, put_heap, put_al]
    cases setV E.numText vm1.heap obj key val (vm1.al 0) with
    | none => rfl
    | some r => rfl

theorem findScope_local (E : Env) (key : Val) : Local fun vm => findScope E vm key := by
  intro vm c hc
  simp only [findScope, Option.bind_eq_bind]
  rw [show keyErr E (put vm c) key = (keyErr E vm key).map (fun x => put x c) from keyErr_local E key vm c hc]
  cases e : keyErr E vm key with
  | none => rfl
  | some vm1 =>
    have := (keyErr_local E key).scopes e
    simp only [Option.map_some, Option.bind_some, put_heap, put_scopes, hc, this]
    cases findIn E vm1.heap key vm.scopes.reverse with
    | none => rfl
    | some r =>
      cases r with
      | some s => rfl
      | none =>
        simp only [Option.bind_some]
        cases strBytes vm1.heap.str key <;> rfl

theorem doOp_local (E : Env) (a b : Val) (op : Nat) : Local fun vm => doOp E vm a b op := by
  intro vm c hc
  simp only [doOp]
  by_cases h1 : ((isForeign a || isNumber a) && (isForeign b || isNumber b)) = true
  · rw [if_pos h1, if_pos h1]
    simp only [Option.bind_eq_bind]
    cases doArith E op (if isNumber a then getDouble a else ofIntD (getPtr a).toNat)
        (if isNumber b then getDouble b else ofIntD (getPtr b).toNat) with
    | none => rfl
    | some r =>
      simp only [Option.bind_some]
      cases r with
      | none =>
        simp only [mapPut, Option.map_some]
        split <;> split <;> (try split) <;> rfl
      | some d =>
        simp only [mapPut]
        split <;> split <;> (try split) <;> (try split) <;> (try split) <;> rfl
  · rw [if_neg h1, if_neg h1]
    split
    · exact concat_local a b vm c hc
    · rfl

theorem assign_local (E : Env) (val obj key : Val) : Local fun vm => assign E vm val obj key := by
  intro vm c hc
  simp only [assign]
  split
  · rw [show setVm E (put vm c) obj key val = (setVm E vm obj key val).map (fun x => put x c) from setVm_local E obj key val vm c hc]
    simp only [Option.map_map, mapPut]
    rfl
  · split
    · split
      · rfl
      · split
        · rfl
        · simp only [put_heap]
          by_cases h : (vm.heap.str.cmem (wrap ((getPtr obj).toNat + getInt key))).isSome = true
          · simp only [h, if_true]; rfl
          · simp only [h]; rfl
    · rfl

theorem update_local (E : Env) (obj key val : Val) (op : Nat) : Local fun vm => update E vm obj key val op := by
  refine (getVm_local E obj key).bind (g := fun v vm => (doOp E vm v val op).bind fun r =>
    (setVm E r.1 obj key r.2).bind fun vm => some (vm, v, r.2)) fun v => ?_
  refine (doOp_local E v val op).bind (g := fun v1 vm => (setVm E vm obj key v1).bind fun vm => some (vm, v, v1)) fun v1 => ?_
  exact (setVm_local E obj key v1).bind (g := fun vm => some (vm, v, v1)) fun vm c _ => rfl

theorem incr_local (E : Env) (post : Bool) (op : Nat) (obj key : Val) : Local fun vm => incr E vm post op obj key := by
  intro vm c hc
  simp only [incr]
  split
  · rw [show update E (put vm c) obj key (mkInt 1) op = mapPut c (update E vm obj key (mkInt 1) op) from update_local E obj key _ op vm c hc]
    simp only [mapPut, Option.map_map]
    rfl
  · rfl

theorem opAssign_local (E : Env) (op : Nat) (val obj key : Val) : Local fun vm => opAssign E vm op val obj key := by
  intro vm c hc
  simp only [opAssign]
  split
  · rw [show update E (put vm c) obj key val op = mapPut c (update E vm obj key val op) from update_local E obj key _ op vm c hc]
    simp only [mapPut, Option.map_map]
    rfl
  · rfl

theorem createIn_local (E : Env) (obj key : Val) : Local0 fun vm => createIn E vm obj key := by
  intro vm c hc
  simp only [createIn, Option.bind_eq_bind]
  rw [show keyErr E (put vm c) key = (keyErr E vm key).map (fun x => put x c) from keyErr_local E key vm c hc]
  cases e : keyErr E vm key with
  | none => rfl
  | some vm1 =>
    simp only [Option.map_some, Option.bind_some, put_heap]
    cases getOwnPropertyV E.numText vm1.heap obj key with
    | none => rfl
    | some p =>
      simp only [Option.bind_some]
      split
      · exact setVm_local E obj key mkUndefined vm1 c (by rw [hc, (keyErr_local E key).scopes e])
      · rfl

theorem append_local (arr val : Val) : Local0 fun vm => append vm arr val := by
  intro vm c _
  simp only [append, Option.bind_eq_bind, put_heap, put_al]
  cases Arr.push vm.heap arr val (vm.al 0) with
  | none => rfl
  | some r =>
    simp only [Option.bind_some, Option.map_some]
    split <;> rfl

theorem forInStep_local (E : Env) (var obj iter : Val) : Local fun vm => forInStep E vm var obj iter := by
  intro vm c hc
  simp only [forInStep, Option.bind_eq_bind]
  split
  · simp only [put_heap]
    cases Obj.next vm.heap obj iter with
    | none => rfl
    | some r =>
      simp only [Option.bind_some]
      split
      · rw [show findScope E (put vm c) var = mapPut c (findScope E vm var) from findScope_local E var vm c hc]
        cases e : findScope E vm var with
        | none => rfl
        | some x =>
          simp only [mapPut, Option.map_some, Option.bind_some]
          rw [show setVm E (put x.1 c) x.2 var r.1 = (setVm E x.1 x.2 var r.1).map (fun x => put x c) from
            setVm_local E x.2 var r.1 x.1 c (by rw [hc, (findScope_local E var).scopes (a := x.2) e])]
          cases setVm E x.1 x.2 var r.1 <;> rfl
      · rfl
  · rfl

theorem builtin_local (E : Env) (val name : Val) : Local fun vm => builtin E vm val name := by
  intro vm c hc
  simp only [builtin, Option.bind_eq_bind]
  rw [show keyErr E (put vm c) name = (keyErr E vm name).map (fun x => put x c) from keyErr_local E name vm c hc]
  cases e : keyErr E vm name with
  | none => rfl
  | some vm1 =>
    have hc1 : c.scopes = vm1.scopes := by rw [hc, (keyErr_local E name).scopes e]
    simp only [Option.map_some, Option.bind_some, put_heap]
    cases toStr E.numText vm1.heap.str name with
    | none => rfl
    | some r =>
      cases r with
      | none => rfl
      | some pn =>
        obtain ⟨p, n⟩ := pn
        simp only [Option.bind_some]
        cases load vm1.heap.str.cmem vm1.heap.str.owned p n with
        | none => rfl
        | some bs =>
          simp only [Option.bind_some]
          split
          · simp only [builtinString, Option.bind_eq_bind, put_heap]
            cases cstrToUlong bs with
            | none => rfl
            | some u =>
              simp only [Option.bind_some]
              cases getString vm1.heap.str val with
              | none => rfl
              | some s =>
                simp only [Option.bind_some]
                split
                · rfl
                split
                · rfl
                split
                · rfl
                split
                · rfl
                split
                · split
                  · rw [show mkStrP (put vm1 c) (s.1.add (cInt u.1).toNat) 1 = mapPut c (mkStrP vm1 (s.1.add (cInt u.1).toNat) 1) from
                      mkStrP_local _ _ vm1 c hc1]
                    simp only [mapPut, Option.map_map]
                    rfl
                  · rfl
                · rfl
          split
          · rfl
          split
          · simp only [builtinArray, put_heap]
            split
            · rfl
            split
            · rfl
            split
            · simp only [mapPut, Option.map_map]; rfl
            · rfl
          split
          · simp only [builtinForeign, Option.bind_eq_bind, put_heap]
            cases cstrToUlong bs with
            | none => rfl
            | some u =>
              simp only [Option.bind_some]
              split
              · rfl
              · simp only [mapPut, Option.map_map]; rfl
          · rfl

theorem getProp_local (E : Env) (obj key : Val) : Local fun vm => getProp E vm obj key := by
  refine (builtin_local E obj key).bind (g := fun r vm1 => match r with
    | some v => some (vm1, v)
    | none =>
      if isObject obj then (getVProto E.numText vm1.heap obj key).map fun v => (vm1, v)
      else some (prepend vm1 .type (txt "type error"), mkUndefined)) fun r => ?_
  intro vm c _
  cases r with
  | some v => rfl
  | none =>
    simp only [put_heap]
    split
    · simp only [mapPut, Option.map_map]; rfl
    · rfl

end Mjs.Exec
