/-
Model of the one-time initialisation `mr_conf_init`, /repo/src/metaresc.c:1913-1979, called
by any number of threads.

The machine: a shared memory and one store buffer per thread (x86-TSO).  A store goes to
the end of the buffer of its thread, a load looks into the own buffer first and then into
the memory, buffers drain at any time.  The order in which a buffer drains is a parameter:
`fifo` is x86-TSO, `perVariable` allows stores to different variables to be swapped (what
the relaxed test-and-set and the plain `volatile` stores of the code permit on weaker
machines).  Sequential consistency is the special case where every store drains at once.

The type tables built between the test-and-set and `initialized = true`
(/repo/src/metaresc.c:1924-1974) are `tables` variables, `table k` tells whether the k-th
part of them has been built; the work of building one part is one store.
-/
namespace Verif.Model.Init

inductive Var
  | initialized
  | initInProgress
  | table (k : Nat)
deriving DecidableEq, Repr

/-- Where a thread is: outside of the library; before `if (initialized)` (line 1919);
before `__atomic_test_and_set` (1922); before building part `k` or, when all parts are
built, before `initialized = true` (1924-1976); before `while (!initialized)` (1978);
returned. -/
inductive Pc
  | outside
  | check
  | testAndSet
  | build (k : Nat)
  | spin
  | returned
deriving DecidableEq, Repr

/-- `built` is a ghost variable: which thread built which part, in order. -/
structure St where
  mem : Var → Bool
  buf : Nat → List Var
  pc : Nat → Pc
  built : List (Nat × Nat)

/-- Static initialisation, all flags are false. -/
def start : St :=
  { mem := fun _ => false, buf := fun _ => [], pc := fun _ => .outside, built := [] }

def put {α : Type} (f : Nat → α) (t : Nat) (x : α) : Nat → α := fun u => if u = t then x else f u

/-- All stores of the code store `true`, so a buffer is the list of the variables stored to. -/
def store (mem : Var → Bool) (v : Var) : Var → Bool := fun w => if w = v then true else mem w

/-- What thread `t` loads from variable `v`. -/
def load (s : St) (t : Nat) (v : Var) : Bool := if v ∈ s.buf t then true else s.mem v

def goto (s : St) (t : Nat) (p : Pc) : St := { s with pc := put s.pc t p }

/-- How buffers drain. -/
inductive Drain
  | fifo
  | perVariable

/-- The buffer after the store to `v` has left it. -/
inductive Leaves : Drain → List Var → Var → List Var → Prop
  | oldest (d : Drain) (v : Var) (b : List Var) : Leaves d (v :: b) v b
  | later (w v : Var) (b c : List Var) : w ≠ v → Leaves .perVariable b v c →
      Leaves .perVariable (w :: b) v (w :: c)

/-- One step of the machine with `tables` parts of the type tables. -/
inductive Step (d : Drain) (tables : Nat) : St → St → Prop
  | call (s : St) (t : Nat) : s.pc t = .outside ∨ s.pc t = .returned →
      Step d tables s (goto s t .check)
  | check (s : St) (t : Nat) : s.pc t = .check →
      Step d tables s (goto s t (if load s t .initialized then .returned else .testAndSet))
  | testAndSet (s : St) (t : Nat) : s.pc t = .testAndSet → s.buf t = [] →
      Step d tables s
        { goto s t (if s.mem .initInProgress then .spin else .build 0) with
            mem := store s.mem .initInProgress }
  | build (s : St) (t k : Nat) : s.pc t = .build k → k < tables →
      Step d tables s
        { goto s t (.build (k + 1)) with
            buf := put s.buf t (s.buf t ++ [.table k]), built := s.built ++ [(t, k)] }
  | publish (s : St) (t : Nat) : s.pc t = .build tables →
      Step d tables s { goto s t .spin with buf := put s.buf t (s.buf t ++ [.initialized]) }
  | spin (s : St) (t : Nat) : s.pc t = .spin →
      Step d tables s (goto s t (if load s t .initialized then .returned else .spin))
  | drain (s : St) (t : Nat) (v : Var) (b : List Var) : Leaves d (s.buf t) v b →
      Step d tables s { s with mem := store s.mem v, buf := put s.buf t b }

/-- Any number of steps. -/
inductive Steps (d : Drain) (tables : Nat) : St → St → Prop
  | refl (s : St) : Steps d tables s s
  | tail (s s' s'' : St) : Steps d tables s s' → Step d tables s' s'' → Steps d tables s s''

end Verif.Model.Init
