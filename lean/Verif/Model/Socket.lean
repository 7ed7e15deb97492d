/-!
# Sockets

Models the bindings of `include/Module/Socket.hxx`.  Sockets are numbered; a net gives the state of each.
-/

namespace Verif.Socket

/-- `Socket`, `Socket.hpp:35-45`.  `isOut` is `type == SOUT`, `dt` the data type, `esize` its size in bytes
(`type_to_size`), `ptr` the data pointer (`none` when null), `bound` is `bound_socket`, `outs` is `bound_sockets`. -/
structure Sock where
  isOut : Bool
  dt : Nat
  esize : Nat
  bytes : Nat
  fast : Bool
  ptr : Option Nat
  bound : Option Nat
  outs : List Nat
  deriving DecidableEq, Repr

/-- All the sockets. -/
abbrev Net := Nat → Sock

/-- Assigns a socket. -/
def Net.set (n : Net) (i : Nat) (s : Sock) : Net := fun j => if j = i then s else n j

/-- Outcome of a call: normal return, exception (the state is that at the throw), or undefined behaviour. -/
inductive Res where
  | done (n : Net)
  | thrown (n : Net)
  | ub

/-- Goes on after a normal return. -/
def Res.andThen : Res → (Net → Res) → Res
  | .done n, f => f n
  | .thrown n, _ => .thrown n
  | .ub, _ => .ub

/-- `Socket::unbind`, `Socket.hxx:507-572` (without the position returned). -/
def unbind (n : Net) (i o : Nat) : Res :=
  if (n i).bound = none then .thrown n
  else if (n i).bound ≠ some o then .thrown n
  else
    let n := n.set i { n i with bound := none }
    if i ∈ (n o).outs then .done (n.set o { n o with outs := (n o).outs.erase i })
    else .thrown n

/-- The position returned by `Socket::unbind`, `Socket.hxx:547-552`. -/
def unbindPos (n : Net) (i o : Nat) : Nat := (n o).outs.idxOf i

/-- The new `bound_sockets` of the output, `Socket.hxx:226-229`; a negative priority becomes a huge `size_t`. -/
def insertAt (l : List Nat) (i : Nat) (p : Int) : List Nat :=
  if p < 0 ∨ (l.length : Int) < p then l ++ [i] else l.take p.toNat ++ i :: l.drop p.toNat

/-- `Socket::bind(Socket&, priority)`, `Socket.hxx:188-230` (after the unbinding of line 186). -/
def bindNew (i o : Nat) (p : Int) (n : Net) : Res :=
  if (n i).bound ≠ none then .thrown n
  else
    let n := n.set i { n i with bound := some o }
    if i ∈ (n o).outs then .thrown n
    else
      let n := n.set o { n o with outs := insertAt (n o).outs i p }
      .done (n.set i { n i with ptr := (n o).ptr })

/-- `Socket::bind(Socket&, priority)`, `Socket.hxx:139-231`. -/
def bind (n : Net) (i o : Nat) (p : Int) : Res :=
  if (n i).fast = false ∧ ((n o).dt ≠ (n i).dt ∨ (n o).bytes ≠ (n i).bytes ∨ (n o).ptr = none) then .thrown n
  else if (n i).bound = some o then (unbind n i o).andThen (bindNew i o p)
  else bindNew i o p n

/-- `Socket::operator=(Socket&)`, `Socket.hxx:359-383`. -/
def assign (n : Net) (i s : Nat) : Res :=
  if (n s).isOut = true ∧ (n i).isOut = false then bind n i s (-1)
  else if (n s).isOut = false ∧ (n i).isOut = true then bind n s i (-1)
  else .thrown n

/-- `Socket::check_bound_socket`, `Socket.hxx:614-656`: whether it throws. -/
def isBound (s : Sock) : Bool := s.outs.length ≠ 0 ∨ s.bound ≠ none

/-- `Socket::bind(void*)`, `Socket.hxx:476-490`. -/
def bindPtr (n : Net) (i : Nat) (p : Option Nat) : Res :=
  if (n i).fast = false ∧ (p = none ∨ isBound (n i)) then .thrown n
  else .done (n.set i { n i with ptr := p })

/-- `if (is_fast()) this->dataptr = ...`, `Socket.hxx:415-416` and `:451-452`. -/
def fastPtr (n : Net) (i : Nat) (p : Option Nat) : Net := if (n i).fast then n.set i { n i with ptr := p } else n

/-- `Socket::bind(T*)`, `Socket.hxx:447-467`. -/
def bindArr (n : Net) (i : Nat) (T : Nat) (p : Option Nat) : Res :=
  let n := fastPtr n i p
  if T ≠ (n i).dt then .thrown n else bindPtr n i p

/-- `Socket::bind(vector)`, `Socket.hxx:411-431`: `len` is `vector.size()`, `p` is `vector.data()`. -/
def bindVec (n : Net) (i : Nat) (T : Nat) (len : Nat) (p : Option Nat) : Res :=
  let n := fastPtr n i p
  if len ≠ (n i).bytes / (n i).esize then .thrown n else bindArr n i T p

/-- `Socket::set_databytes`, `Socket.hxx:594-602`. -/
def setBytes (n : Net) (i b : Nat) : Res :=
  if b ≠ (n i).bytes then
    if isBound (n i) then .thrown n else .done (n.set i { n i with bytes := b })
  else .done n

/-- `Socket::set_datatype`, `Socket.hxx:584-592` (`e` is the size of the type). -/
def setType (n : Net) (i T e : Nat) : Res :=
  if T ≠ (n i).dt then
    if isBound (n i) then .thrown n else .done (n.set i { n i with dt := T, esize := e })
  else .done n

/-- `Socket::set_dataptr`, `Socket.hxx:604-612`. -/
def setPtr (n : Net) (i : Nat) (p : Option Nat) : Res :=
  if p ≠ (n i).ptr then
    if isBound (n i) then .thrown n else .done (n.set i { n i with ptr := p })
  else .done n

/-- `Socket::set_fast`, `Socket.hxx:133-137`. -/
def setFast (n : Net) (i : Nat) (f : Bool) : Res := .done (n.set i { n i with fast := f })

/-- The loop of `Socket::reset`, `Socket.hxx:503-504`: a range-based `for` over `bound_sockets`, whose bounds are evaluated
once (`k` is the initial size, `j` the index of the turn), while every turn erases an element.  Reading at or beyond the
current size is undefined.  (For one socket the iterators are compared after the erasure; this is taken as it behaves
on pointers.) -/
def resetLoop (i : Nat) : Nat → Nat → Net → Res
  | 0, _, n => .done n
  | k + 1, j, n =>
    match (n i).outs[j]? with
    | none => .ub
    | some s => (unbind n s i).andThen (resetLoop i k (j + 1))

/-- The first part of `Socket::reset`, `Socket.hxx:501-502`. -/
def resetIn (n : Net) (i : Nat) : Res :=
  match (n i).bound with
  | none => .done n
  | some o => unbind n i o

/-- `Socket::reset`, `Socket.hxx:498-505`. -/
def reset (n : Net) (i : Nat) : Res := (resetIn n i).andThen fun n => resetLoop i (n i).outs.length 0 n

/-- A call. -/
inductive Op where
  | bind (i o : Nat) (p : Int)
  | assign (i s : Nat)
  | unbind (i o : Nat)
  | reset (i : Nat)
  | bindPtr (i : Nat) (p : Option Nat)
  | bindArr (i T : Nat) (p : Option Nat)
  | bindVec (i T len : Nat) (p : Option Nat)
  | setBytes (i b : Nat)
  | setType (i T e : Nat)
  | setPtr (i : Nat) (p : Option Nat)
  | setFast (i : Nat) (f : Bool)

/-- Runs a call. -/
def Op.run (n : Net) : Op → Res
  | .bind i o p => Socket.bind n i o p
  | .assign i s => Socket.assign n i s
  | .unbind i o => Socket.unbind n i o
  | .reset i => Socket.reset n i
  | .bindPtr i p => Socket.bindPtr n i p
  | .bindArr i T p => Socket.bindArr n i T p
  | .bindVec i T len p => Socket.bindVec n i T len p
  | .setBytes i b => Socket.setBytes n i b
  | .setType i T e => Socket.setType n i T e
  | .setPtr i p => Socket.setPtr n i p
  | .setFast i f => Socket.setFast n i f

/-- Runs calls, going on after exceptions (the caller catches them); `none` after undefined behaviour. -/
def runAll : Net → List Op → Option Net
  | n, [] => some n
  | n, o :: os =>
    match o.run n with
    | .done n' => runAll n' os
    | .thrown n' => runAll n' os
    | .ub => none

end Verif.Socket
