/-!
# Naming and lookup of the functions of a kernel, LLVM backend

Models how the code of functions is deduplicated, named and numbered: `jitc_assemble_func` (`/repo/src/eval.cpp:1305-1336`), the globals of
`jitc_llvm_assemble` (`/repo/src/llvm_eval.cpp:231-242`), `jitc_llvm_mcjit_compile`/`jitc_llvm_orcv2_compile` (`/repo/src/llvm_mcjit.cpp:109-145`,
`/repo/src/llvm_orcv2.cpp:90-135`), the table of function pointers (`/repo/src/llvm_core.cpp:534-540`), and the two kinds of calls
(`/repo/src/llvm_eval.cpp:1813-1823, 1859-1870`).
-/
namespace Verif.Callable

/-- eval.h:40-45 `GlobalType`.  Only functions are modelled: other globals (declarations of intrinsics) and type definitions have names of their
own. -/
inductive GType
  | indirect
  | callable
deriving DecidableEq

/-- eval.h:47-61 `GlobalKey`: a 128 bit hash and the type -/
structure Key where
  type : GType
  hash : Nat
deriving DecidableEq

/-- `GlobalKey::operator<` (eval.h:57-60): first the type, then the hash -/
def Key.lt (a b : Key) : Bool :=
  match a.type, b.type with
  | .indirect, .callable => true
  | .callable, .indirect => false
  | _, _ => decide (a.hash < b.hash)

/-- The position of a new element in the order of the map -/
def insertSorted {T : Type} (k : Key) (t : T) : List (Key × T) → List (Key × T)
  | [] => [(k, t)]
  | (k', t') :: m => if k.lt k' then (k, t) :: (k', t') :: m else (k', t') :: insertSorted k t m

/-- `globals_map.emplace` (`std::map`): does nothing if the key is present -/
def emplace {T : Type} (k : Key) (t : T) (m : List (Key × T)) : List (Key × T) :=
  if k ∈ m.map Prod.fst then m else insertSorted k t m

/-- A function to be assembled: `call->n_inst == 1`, and the code (with a placeholder in place of its name) -/
structure Fn (T : Type) where
  single : Bool
  text : T

/-- `indirect_callable_count` and `globals_map` -/
structure State (T : Type) where
  count : Nat
  map : List (Key × T)

/-- The type of the key (eval.cpp:1317, call.cpp:1141-1143) -/
def gtype (single : Bool) : GType := if single then .callable else .indirect

/-- `kernel_hash` (eval.cpp:1310-1315).  `H`: the hash `XXH128` -/
def hashOf {T : Type} (merge : Bool) (H : T → Nat) (s : State T) (f : Fn T) : Nat := if merge then H f.text else s.count % 2 ^ 64

/-- eval.cpp:1305-1336: the end of `jitc_assemble_func` -/
def assemble {T : Type} (merge : Bool) (H : T → Nat) (s : State T) (f : Fn T) : State T :=
  { count := if f.single then s.count else s.count + 1
    map := emplace ⟨gtype f.single, hashOf merge H s f⟩ f.text s.map }

/-- The functions of a kernel, in the order in which their code is complete.  The result contains the hashes that are stored in
`call->inst_hash` (call.cpp, `jitc_var_call_assemble`). -/
def assembleAll {T : Type} (merge : Bool) (H : T → Nat) (s : State T) : List (Fn T) → State T × List Nat
  | [] => (s, [])
  | f :: fs =>
    let r := assembleAll merge H (assemble merge H s f) fs
    (r.1, hashOf merge H s f :: r.2)

/-- A symbol of the compiled kernel -/
inductive Sym (T : Type)
  | kernel
  | callables
  | fn (t : T)
deriving DecidableEq

/-- The keys of functions that are called indirectly, in the order of the map -/
def indirects {T : Type} (m : List (Key × T)) : List Key := (m.map Prod.fst).filter fun k => decide (k.type = .indirect)

/-- A compiled kernel: functions by name, and the table `kernel.llvm.reloc` of symbols -/
structure Prog (T : Type) where
  named : Nat → Option T
  reloc : List (Sym T)

/-- The module defines a function `func_<hash>` for every element of the map (llvm_eval.cpp:231-238); LLVM rejects modules that define the same name
twice (`none`; `jitc_fail` terminates the process, llvm_core.cpp:444-447). -/
def named {T : Type} (m : List (Key × T)) (h : Nat) : Option T := (m.find? fun e => decide (e.1.hash = h)).map Prod.snd

/-- llvm_core.cpp:498-504 and `jitc_llvm_*_compile`: the kernel, the variable `@callables`, and the functions that are called indirectly, looked up by
name; `none`: the process is terminated -/
def compile {T : Type} (m : List (Key × T)) : Option (Prog T) :=
  if (m.map fun e => e.1.hash).Nodup then
    if indirects m = [] then some ⟨named m, [.kernel]⟩
    else ((indirects m).mapM fun k => (named m k.hash).map Sym.fn).map fun fs => ⟨named m, .kernel :: .callables :: fs⟩
  else none

/-- `it.second.callable_index` (llvm_eval.cpp:231-242): the number of the function; 0 if it is not called indirectly -/
def callableIndex {T : Type} (m : List (Key × T)) (k : Key) : Nat := if k.type = .indirect then 1 + (indirects m).idxOf k else 0

/-- The code that a call executes for one of its functions.  Calls with one target refer to the name (llvm_eval.cpp:1813-1823).  Other calls read
the number of the function from the table of the call, which was filled by `jitc_call_upload` (call.cpp:1139-1154, see C35), and the
pointer from the array to which `@callables` points: `kernel.llvm.reloc + 1` (llvm_core.cpp:538-540). -/
def executes {T : Type} (m : List (Key × T)) (p : Prog T) (single : Bool) (hash : Nat) : Option (Sym T) :=
  if single then (p.named hash).map .fn
  else p.reloc[1 + callableIndex m ⟨gtype single, hash⟩]?

end Verif.Callable
