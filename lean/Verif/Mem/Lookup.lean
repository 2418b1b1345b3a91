import Verif.Mem.World
/-!
# Path lookup of memory.py
-/
namespace Verif.Mem

/-- memory.py:376-381 `_path`: the path without its leading slash -/
def stripPath (u : Uri) : Except PyErr Str :=
  match u.path with
  | '/' :: p => .ok p
  | _ => .error .assertionError

/-- memory.py:314-329 `_child(parent, name, resolve_link)`.  `resolve` stands for the call of
    `_get_node_for_path` on the link's target at the next link level (including the check of the level,
    memory.py:320-322).  The result is an object reference or None. -/
def child (w : World) (resolve : Uri → Except PyErr (Option Nat)) (parent : Nat) (name : Str)
    (resolveLink : Bool) : Except PyErr (Option Nat) :=
  match w.node parent with
  | .dir d =>
    match d.get name with
    | none => .ok none
    | some i =>
      match w.node i with
      | .link l =>
        if resolveLink then
          match resolve l.target with
          | .error e => .error e
          | .ok none => .ok none
          | .ok (some j) =>
            match w.node j with
            | .link _ => .error .assertionError
            | _ => .ok (some j)
        else .ok (some i)
      | _ => .ok (some i)
  | _ => .error .attributeError

/-- memory.py:340-357 the loop of `_get_node_prev` over the remaining steps, with `prev` and `current`;
    `last` is `steps[-1]`. -/
def prevLoop (w : World) (resolve : Uri → Except PyErr (Option Nat)) (follow throw : Bool) (last : Str) :
    List Str → Option Nat → Option Nat → Except PyErr (Option Nat × Option Nat)
  | [], prev, cur => .ok (prev, cur)
  | part :: rest, _, cur =>
    match cur with
    | none => .error .attributeError
    | some c =>
      match w.node c with
      | .dir d =>
        if d.has part then
          match child w resolve c part (if part = last then follow else true) with
          | .error e => .error e
          | .ok nxt => prevLoop w resolve follow throw last rest (some c) nxt
        else if throw then .error (.os .ENOENT)
        else .ok (none, none)
      | _ => .error .attributeError

/-- memory.py:338-357 `_get_node_prev(self._fs, steps, ...)` -/
def nodePrevWith (w : World) (root : Nat) (resolve : Uri → Except PyErr (Option Nat)) (follow throw : Bool)
    (steps : List Str) : Except PyErr (Option Nat × Option Nat) :=
  prevLoop w resolve follow throw (steps.getLastD []) steps none (some root)

/-- memory.py:366-373 `_get_node_for_path(self._fs, unc, ...)` -/
def nodeForPathWith (w : World) (root : Nat) (resolve : Uri → Except PyErr (Option Nat))
    (follow throw : Bool) (u : Uri) : Except PyErr (Option Nat) :=
  match stripPath u with
  | .error e => .error e
  | .ok p =>
    if p ≠ [] then
      match nodePrevWith w root resolve follow throw (splitC '/' p) with
      | .error e => .error e
      | .ok r => .ok r.2
    else .ok (some root)

/-- memory.py:318-324 resolution of a link target when `k` more levels are allowed
    (`k = 32 - linklevel`). -/
def resolveLink (w : World) (root : Nat) (throw : Bool) : Nat → Uri → Except PyErr (Option Nat)
  | 0, _ => .error (.os .ELOOP)
  | k + 1, t => nodeForPathWith w root (resolveLink w root throw k) true throw t

/-- memory.py:338-357 `_get_node_prev` at link level 0 -/
def nodePrev (w : World) (root : Nat) (follow throw : Bool) (steps : List Str) :
    Except PyErr (Option Nat × Option Nat) :=
  nodePrevWith w root (resolveLink w root throw 32) follow throw steps

/-- memory.py:360-363 `_get_node` at link level 0 with `throw=True`, `follow_link=True` -/
def getNode (w : World) (root : Nat) (steps : List Str) : Except PyErr (Option Nat) :=
  match nodePrev w root true true steps with
  | .error e => .error e
  | .ok r => .ok r.2

/-- memory.py:366-373 `_get_node_for_path` at link level 0 -/
def nodeForPath (w : World) (root : Nat) (follow throw : Bool) (u : Uri) : Except PyErr (Option Nat) :=
  nodeForPathWith w root (resolveLink w root throw 32) follow throw u

end Verif.Mem
