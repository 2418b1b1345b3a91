import Verif.Any.Freight
/-!
# Archives whose connections are dropped

`ConnectionRegistry.cleanup` (fs.py:134-143) closes and forgets connections that were not used for long; the next call makes a new
one.  `close` of an archive does nothing (fs.py:877-878; zip.py has no other), and a new connection has no handle (zip.py:105-107).
-/
namespace Verif.Any
open Verif.Spec

variable (C : Codec)

/-- what a program does, and the registry beside it: a call of Verif/Any/Freight.lean, or the connections of some archives are
    dropped -/
inductive SweepAct (κ ζ : Type)
  | act (a : FreightAct κ ζ)
  | sweep (l : List ζ)

/-- fs.py:134-143 `cleanup` for the connections with these keys, as far as the calls that follow can tell: archives have a handle
    after the next `open_zip` only.  Which connections are old enough, and when the thread looks at them, is left open: any, at any
    time between two calls.  Connections of local files have no state; those of file systems in memory are Verif/Props/MemLife.lean. -/
def Arc.sweep (ks : List Reg.Key) (s : Arc) : Arc := ⟨s.sys, fun k => if k ∈ ks then none else s.handle k⟩

/-- a call of a program, or a clean-up -/
def SweepAct.run {ι κ ζ : Type} (E : ι → Dict) (site : κ → Option ι) (X : ζ → Str) (depth : Nat) : SweepAct κ ζ → OM Arc Ans
  | .act a => a.run C E site X depth
  | .sweep l => fun s => (.ok .unit, s.sweep (l.map fun z => zkey (X z)))

/-- a program and the clean-ups beside it; by what the calls before answered -/
def SweepPrg (κ ζ : Type) := List (Except PyErr Ans) → Option (SweepAct κ ζ)

/-- the answers of the first `n` calls of a program, and the state after them -/
def SweepPrg.exec {σ κ ζ : Type} (step : SweepAct κ ζ → OM σ Ans) (pr : SweepPrg κ ζ) : Nat → σ → List (Except PyErr Ans) × σ
  | 0, s => ([], s)
  | n + 1, s =>
    let x := pr.exec step n s
    match pr x.1 with
    | none => x
    | some a => (x.1 ++ [(step a x.2).1], (step a x.2).2)

/-- What is expected (no code of the repository): what was seen in an archive is forgotten with its connection. -/
def SweepAct.says {κ ζ : Type} [DecidableEq κ] [DecidableEq ζ] (may : κ → κ → Bool) (loc : κ → Bool) (arc : ζ → κ × List Str) (depth : Nat) :
    SweepAct κ ζ → OM ((κ → Tree) × (ζ → Option (List Zip.Entry))) Ans
  | .act a => a.says C may loc arc depth
  | .sweep l => fun (T, M) => (.ok .unit, T, fun z => if z ∈ l then none else M z)

end Verif.Any
