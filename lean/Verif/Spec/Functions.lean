import Verif.Model.Circuit

/-!
# Programs with functions of their own

What a user of `sub_circuit` and `module` (/repo/src/bool_circuit.rs:190-204, 574-618) writes: some functions on bits, each
one a sub circuit that may call the functions defined before it, and a main circuit. `compile` performs the calls of the
library. `run` says what the program means, with the functions of a program as Lean functions: no circuits, gates or modules.
-/

namespace CC.Spec.Functions

/-- one line; its results get the next positions. Operands are positions: first the arguments, then the results so far. -/
inductive Line where
  | const (b : Bool)
  | not (i : Nat)
  | and (i j : Nat)
  | or (i j : Nat)
  | xor (i j : Nat)
  | same (i j : Nat)
  | copy (i : Nat)
  | call (f : Nat) (args : List Nat)

structure Func where
  arity : Nat
  body : List Line
  outs : List Nat

/-! ### what the user writes -/

/-- the call a line stands for; `mods` are the modules of the functions so far, `env` the gates so far -/
def Line.build (r : Ref) (mods : List ModuleId) (env : List GateId) : Line → M (List GateId)
  | .const b => do return [← CC.constant r b]
  | .not i => do let x ← M.idx env i; return [← CC.not r x]
  | .and i j => do let x ← M.idx env i; let y ← M.idx env j; return [← CC.and r x y]
  | .or i j => do let x ← M.idx env i; let y ← M.idx env j; return [← CC.or r x y]
  | .xor i j => do let x ← M.idx env i; let y ← M.idx env j; return [← CC.xor r x y]
  | .same i j => do let x ← M.idx env i; let y ← M.idx env j; return [← CC.equivalent r x y]
  | .copy i => do let x ← M.idx env i; return [← CC.identity r x]
  | .call f args => do
    let m ← M.idx mods f
    let xs ← M.mapList (fun i => M.idx env i) args
    CC.module r m xs

def build (r : Ref) (mods : List ModuleId) : List Line → List GateId → M (List GateId)
  | [], env => pure env
  | l :: p, env => do
    let gs ← l.build r mods env
    build r mods p (env ++ gs)

/-- inputs, body and outputs in circuit `r` -/
def Func.build (r : Ref) (mods : List ModuleId) (F : Func) : M Unit := do
  let args ← M.replicate (CC.input r) F.arity
  let env ← Functions.build r mods F.body args
  let _ ← M.mapList (fun i => do let g ← M.idx env i; CC.output r g) F.outs

/-- every function becomes a sub circuit of `r` -/
def define (r : Ref) : List Func → List ModuleId → M (List ModuleId)
  | [], mods => pure mods
  | F :: lib, mods => do
    let (m, s) ← subCircuit r
    F.build s mods
    define r lib (mods ++ [m])

/-- the whole program; returns the main circuit -/
def compile (st : StoreRef) (lib : List Func) (main : Func) : M Ref := do
  let r ← newCircuit st
  let mods ← define r lib []
  main.build r mods
  pure r

/-! ### what it means -/

/-- a function on bits -/
abbrev Fn := List Bool → Option (List Bool)

/-- the results of a line -/
def Line.run (fns : List Fn) (env : List Bool) : Line → Option (List Bool)
  | .const b => some [b]
  | .not i => do let x ← env[i]?; return [!x]
  | .and i j => do let x ← env[i]?; let y ← env[j]?; return [x && y]
  | .or i j => do let x ← env[i]?; let y ← env[j]?; return [x || y]
  | .xor i j => do let x ← env[i]?; let y ← env[j]?; return [x != y]
  | .same i j => do let x ← env[i]?; let y ← env[j]?; return [x == y]
  | .copy i => do let x ← env[i]?; return [x]
  | .call f args => do
    let fn ← fns[f]?
    let xs ← args.mapM fun i => env[i]?
    fn xs

def run (fns : List Fn) : List Line → List Bool → Option (List Bool)
  | [], env => some env
  | l :: p, env => do
    let bs ← l.run fns env
    run fns p (env ++ bs)

/-- a function applied to its arguments -/
def Func.run (fns : List Fn) (F : Func) : Fn := fun args => do
  let env ← Functions.run fns F.body args
  F.outs.mapM fun i => env[i]?

/-- the functions of a program, each in terms of the earlier ones -/
def meaning : List Func → List Fn → List Fn
  | [], fns => fns
  | F :: lib, fns => meaning lib (fns ++ [F.run fns])

/-! ### which programs there are -/

/-- what callers know about a function: arguments, results, and wires of its circuit other than the arguments -/
structure Sig where
  ins : Nat
  outs : Nat
  wires : Nat
  deriving DecidableEq

/-- the number of results of a line -/
def Line.width (sigs : List Sig) : Line → Nat
  | .call f _ => match sigs[f]? with | some σ => σ.outs | none => 0
  | _ => 1

/-- the number of wires a line adds to its circuit; those of called circuits count -/
def Line.wires (sigs : List Sig) : Line → Nat
  | .same _ _ => 2
  | .copy _ => 2
  | .call f _ => match sigs[f]? with | some σ => σ.wires | none => 0
  | _ => 1

def Line.operands : Line → List Nat
  | .const _ => []
  | .not i | .copy i => [i]
  | .and i j | .or i j | .xor i j | .same i j => [i, j]
  | .call _ args => args

/-- calls are of earlier functions, with the right number of arguments -/
def Line.Ok (sigs : List Sig) : Line → Prop
  | .call f args => ∃ σ, sigs[f]? = some σ ∧ args.length = σ.ins
  | _ => True

/-- a function that is called has no more results than its circuit has wires, arguments not counted -/
def Line.Room (sigs : List Sig) : Line → Prop
  | .call f _ => ∀ σ, sigs[f]? = some σ → σ.outs ≤ σ.wires
  | _ => True

/-- lines use earlier values; `m` values exist before the first one -/
def Scoped (sigs : List Sig) : Nat → List Line → Prop
  | _, [] => True
  | m, l :: p => l.Ok sigs ∧ (∀ i ∈ l.operands, i < m) ∧ Scoped sigs (m + l.width sigs) p

/-- the number of values -/
def values (sigs : List Sig) : List Line → Nat
  | [] => 0
  | l :: p => l.width sigs + values sigs p

/-- the number of wires -/
def wires (sigs : List Sig) : List Line → Nat
  | [] => 0
  | l :: p => l.wires sigs + wires sigs p

def Line.source : Line → Bool
  | .const _ => true
  | _ => false

/-- for every value the number of its line, and whether it is a constant -/
def marks (sigs : List Sig) : Nat → List Line → List (Nat × Bool)
  | _, [] => []
  | k, l :: p => List.replicate (l.width sigs) (k, l.source) ++ marks sigs (k + 1) p

/-- the marks of all values of a function; arguments belong to line 0 -/
def Func.marks (sigs : List Sig) (F : Func) : List (Nat × Bool) := List.replicate F.arity (0, true) ++ Functions.marks sigs 1 F.body

/-- Results are declared in the order of the lines that compute them; arguments and constants may come earlier than that. -/
def Func.Ordered (sigs : List Sig) (F : Func) : Prop :=
  F.outs.Pairwise fun a b => ∀ k s k' s', (F.marks sigs)[a]? = some (k, s) → (F.marks sigs)[b]? = some (k', s') → s = true ∨ k ≤ k'

/-- results are values of the function -/
structure Func.Fine (sigs : List Sig) (F : Func) : Prop where
  lines : Scoped sigs F.arity F.body
  outs : ∀ i ∈ F.outs, i < F.arity + values sigs F.body

structure Func.Ok (sigs : List Sig) (F : Func) : Prop extends F.Fine sigs where
  order : F.Ordered sigs

def Func.sig (sigs : List Sig) (F : Func) : Sig := ⟨F.arity, F.outs.length, Functions.wires sigs F.body⟩

/-- every function is fine given the earlier ones -/
def LibOk : List Sig → List Func → Prop
  | _, [] => True
  | sigs, F :: lib => F.Ok sigs ∧ LibOk (sigs ++ [F.sig sigs]) lib

/-- all calls in the functions have room -/
def LibRoom : List Sig → List Func → Prop
  | _, [] => True
  | sigs, F :: lib => (∀ l ∈ F.body, l.Room sigs) ∧ LibRoom (sigs ++ [F.sig sigs]) lib

/-- the signatures of all functions -/
def signatures : List Func → List Sig → List Sig
  | [], sigs => sigs
  | F :: lib, sigs => signatures lib (sigs ++ [F.sig sigs])

/-- all calls of a program have room -/
def Roomy (lib : List Func) (main : Func) : Prop := LibRoom [] lib ∧ ∀ l ∈ main.body, l.Room (signatures lib [])

end CC.Spec.Functions
