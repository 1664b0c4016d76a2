import Mathlib.Logic.Function.Basic

/-!
# Read-only file mappings and who owns them

/repo/include/storage/mmap_file.hpp:65-206 (`MMapFile`), the POSIX branch.

The system is open: each call of `open_impl` comes with what `open`, `fstat` and `mmap` answer.  Objects are numbered; a program creates, moves and
destroys them in any order.

Simplifications: a mapping is a number with its length; a file descriptor is a number; messages, the Windows branch and the content of the file are left
out; moves from or to an object that does not exist, and creating one that exists, do nothing.
-/

namespace Alaya.MMap

/-- A mapping: its address (as a number) and its length. -/
abbrev Mapping := Nat × Nat

structure World where
  /-- Open file descriptors. -/
  fds : List Nat := []
  /-- What is mapped. -/
  maps : List Mapping := []
  /-- Objects: `none` = does not exist, `some none` = holds nothing, otherwise `data_` and `size_`. mmap_file.hpp:204-205 -/
  objs : Nat → Option (Option Mapping) := fun _ => none
  /-- Next unused descriptor or address. -/
  next : Nat := 0
  /-- `munmap` was called for something that was not mapped. -/
  wrong : Bool := false

/-- What the system answers: does `open` succeed; `fstat` (`none` = fails; regular file?, size); does `mmap` succeed. -/
structure Answers where
  opens : Bool
  stat : Option (Bool × Int)
  maps : Bool

/-- `open_impl`: `none` when it throws. mmap_file.hpp:107, 156-188 -/
def openImpl (w : World) (a : Answers) : World × Option Mapping :=
  if !a.opens then (w, none)
  else
    let fd := w.next
    let w := { w with fds := fd :: w.fds, next := w.next + 1 }
    let close (w : World) : World := { w with fds := w.fds.erase fd }
    match a.stat with
    | none => (close w, none)
    | some (reg, size) =>
      if !reg then (close w, none)
      else if size ≤ 0 then (close w, none)
      else if a.maps then
        let m : Mapping := (w.next, size.toNat)
        (close { w with maps := m :: w.maps, next := w.next + 1 }, some m)
      else (close w, none)

/-- `release` of object `i`. mmap_file.hpp:190-202 -/
def release (w : World) (i : Nat) : World :=
  match w.objs i with
  | some (some m) => { w with maps := w.maps.erase m, wrong := w.wrong || !(w.maps.contains m), objs := Function.update w.objs i (some none) }
  | _ => w

inductive Op where
  | empty (i : Nat)
  | new (i : Nat) (a : Answers)
  | moveNew (i j : Nat)
  | moveAssign (i j : Nat)
  | destroy (i : Nat)

/-- Constructors, move assignment and destructor. mmap_file.hpp:67-93 -/
def step (w : World) : Op → World
  | .empty i => if w.objs i = none then { w with objs := Function.update w.objs i (some none) } else w
  | .new i a =>
    if w.objs i = none then
      match openImpl w a with
      | (w', none) => w'
      | (w', some m) => { w' with objs := Function.update w'.objs i (some (some m)) }
    else w
  | .moveNew i j =>
    if w.objs i = none then
      match w.objs j with
      | none => w
      | some x => { w with objs := Function.update (Function.update w.objs i (some x)) j (some none) }
    else w
  | .moveAssign i j =>
    if i = j then w
    else if w.objs i = none then w
    else
      match w.objs j with
      | none => w
      | some x =>
        let w := release w i
        { w with objs := Function.update (Function.update w.objs i (some x)) j (some none) }
  | .destroy i =>
    let w := release w i
    { w with objs := Function.update w.objs i none }

def run (ops : List Op) : World := ops.foldl step {}

/-- `as<T>()` for a type of `sz` bytes: the number of elements there are, `none` when it throws. mmap_file.hpp:97-104 -/
def asElems (size sz : Nat) : Option Nat := if size % sz ≠ 0 then none else some (size / sz)

end Alaya.MMap
