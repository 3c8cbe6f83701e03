import Mathlib.Data.Finset.Basic
import Mathlib.Data.Finset.Insert
import Mathlib.Data.Rat.Init

/-!
# Python's == and in for the objects of salabim: register, deregister (salabim.py:959-1001, 4636-4678, 7355-7397, 23567-23609, 24227-24269) and
print_histograms(exclude) (salabim.py:4777-4781, 23641-23646, 24195-24202)

An object is its kind and a number that stands for its identity. `set(q)` of a queue is given as a finite set of components. Left out: registries that are not a list or
have other things in them, and the histograms themselves.
-/

namespace Verif
namespace Reg

/-- the kinds of objects with a register method; a Store is a Queue, a ComponentGenerator is a Component -/
inductive Kind
  | monitor | queue | component | state | resource
  deriving DecidableEq, Repr

/-- an object: its class and its identity -/
structure Obj where
  kind : Kind
  id : Nat
  deriving DecidableEq, Repr

/-- the exceptions -/
inductive Err
  | type | value
  deriving DecidableEq, Repr

/-- `set(q)` for the queues (salabim.py:5275) -/
abbrev Contents := Nat → Finset Nat

/-- `a.__eq__(b)`: Monitor.__eq__ (salabim.py:475-478), Queue.__eq__ (salabim.py:5273-5282) or object.__eq__; `none` is NotImplemented. Of these objects only queues
have an `__iter__` -/
def eqMethod (cs : Contents) (a b : Obj) : Except Err (Option Bool) :=
  match a.kind with
  | .monitor => if b.kind = .monitor then .ok (if a = b then some true else none) else .error .type
  | .queue => .ok (if b.kind = .queue then some (decide (cs a.id = cs b.id)) else none)
  | _ => .ok (if a = b then some true else none)

/-- Python's `a == b`: `a.__eq__(b)`, if that is NotImplemented `b.__eq__(a)`, if that is NotImplemented too `a is b` -/
def eq (cs : Contents) (a b : Obj) : Except Err Bool :=
  match eqMethod cs a b with
  | .error e => .error e
  | .ok (some r) => .ok r
  | .ok none =>
    match eqMethod cs b a with
    | .error e => .error e
    | .ok (some r) => .ok r
    | .ok none => .ok (decide (a = b))

/-- Python's `o in l` for a list or tuple: an element that is `o` or equals `o` -/
def isIn (cs : Contents) (o : Obj) : List Obj → Except Err Bool
  | [] => .ok false
  | x :: l =>
    if x = o then .ok true else
    match eq cs x o with
    | .error e => .error e
    | .ok true => .ok true
    | .ok false => isIn cs o l

/-- Python's `l.remove(o)`: the first element that is `o` or equals `o` is removed -/
def remove (cs : Contents) (o : Obj) : List Obj → Except Err (List Obj)
  | [] => .error .value
  | x :: l =>
    if x = o then .ok l else
    match eq cs x o with
    | .error e => .error e
    | .ok true => .ok l
    | .ok false =>
      match remove cs o l with
      | .error e => .error e
      | .ok l' => .ok (x :: l')

/-- `o.register(registry)` (salabim.py:978-981, 4655-4658, 7374-7377, 23586-23589, 24246-24249) -/
def register (cs : Contents) (o : Obj) (l : List Obj) : Except Err (List Obj) :=
  match isIn cs o l with
  | .error e => .error e
  | .ok true => .error .value
  | .ok false => .ok (l ++ [o])

/-- `o.deregister(registry)` (salabim.py:998-1001, 4675-4678, 7394-7397, 23606-23609, 24266-24269) -/
def deregister (cs : Contents) (o : Obj) (l : List Obj) : Except Err (List Obj) :=
  match isIn cs o l with
  | .error e => .error e
  | .ok false => .error .value
  | .ok true => remove cs o l

/-- a call -/
inductive Call
  | reg (o : Obj)
  | dereg (o : Obj)
  deriving DecidableEq, Repr

/-- the object that a call is about -/
def Call.obj : Call → Obj
  | .reg o => o
  | .dereg o => o

/-- a call; if it raises an exception the registry is as before -/
def call (l : List Obj) (c : Contents × Call) : List Obj :=
  match c with
  | (cs, .reg o) => match register cs o l with | .ok l' => l' | .error _ => l
  | (cs, .dereg o) => match deregister cs o l with | .ok l' => l' | .error _ => l

/-- the registry after a list of calls, each with the contents of the queues at that moment -/
def run (cs : List (Contents × Call)) : List Obj := cs.foldl call []

/-! ## print_histograms -/

/-- `for m in ms: if m not in exclude: ...`: the monitors that are printed (salabim.py:4778-4780, 24199-24201) -/
def shown (cs : Contents) (exclude : List Obj) : List Obj → Except Err (List Obj)
  | [] => .ok []
  | m :: ms =>
    match isIn cs m exclude with
    | .error e => .error e
    | .ok b =>
      match shown cs exclude ms with
      | .error e => .error e
      | .ok l => .ok (if b then l else m :: l)

/-- the queues, for each the queue itself, its length and its length_of_stay monitor: `for q in (...): if q not in exclude: q.print_histograms(exclude)`
(salabim.py:24196-24198, 23642-23643, 4777-4781) -/
def shownQ (cs : Contents) (exclude : List Obj) : List (Obj × Obj × Obj) → Except Err (List Obj)
  | [] => .ok []
  | q :: qs =>
    match isIn cs q.1 exclude with
    | .error e => .error e
    | .ok b =>
      match (if b then .ok [] else shown cs exclude [q.2.1, q.2.2]) with
      | .error e => .error e
      | .ok l =>
        match shownQ cs exclude qs with
        | .error e => .error e
        | .ok l' => .ok (l ++ l')

/-- the monitors with a histogram in Resource.print_histograms(exclude) (salabim.py:24195-24202): two queues and four monitors; in State.print_histograms(exclude)
(salabim.py:23641-23646): one queue and one monitor -/
def printed (cs : Contents) (exclude : List Obj) (qs : List (Obj × Obj × Obj)) (ms : List Obj) : Except Err (List Obj) :=
  match shownQ cs exclude qs with
  | .error e => .error e
  | .ok l =>
    match shown cs exclude ms with
    | .error e => .error e
    | .ok l' => .ok (l ++ l')

end Reg
end Verif
