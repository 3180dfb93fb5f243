import Verif.Model.Basic
/-! # Line table (src/tokenizer.rs:55-96) -/
namespace Pico

/-- src/tokenizer.rs:56-59 `LineMap`: byte offset of the start of every line, and the end of the input. -/
structure LineMap where
  data : List Nat
  endPos : Nat
  deriving DecidableEq, Repr

/-- src/tokenizer.rs:62-67 `LineMap::new`. -/
def LineMap.new : LineMap := ⟨[0], 0⟩

/-- src/tokenizer.rs:93-95 `LineMap::push`. -/
def LineMap.push (m : LineMap) (pos : Nat) : LineMap := { m with data := m.data ++ [pos] }

/-- src/tokenizer.rs:72-79, the `while` loop of `line_from_position`; the fuel is consumed once per
iteration. `none` is an out-of-range index. -/
def lineLoop (data : List Nat) (pos : Nat) : (fuel a b : Nat) → Option Nat
  | 0, a, _ => some a
  | fuel + 1, a, b =>
    if b - a > 1 then
      let mid := (a + b) / 2
      match data[mid]? with
      | none => none
      | some v => if v > pos then lineLoop data pos fuel a mid else lineLoop data pos fuel mid b
    else some a

/-- src/tokenizer.rs:69-81 `LineMap::line_from_position`. The loop halves the interval, so `data.length`
iterations are enough (proved in `Verif.Lemmas.LineMap`). -/
def LineMap.lineFromPosition (m : LineMap) (pos : Nat) : Option Nat :=
  lineLoop m.data pos m.data.length 0 m.data.length

/-- src/tokenizer.rs:83-90 `LineMap::line`: byte range of a line; `none` is an out-of-range index. -/
def LineMap.line (m : LineMap) (line : Nat) : Option (Nat × Nat) :=
  let stop := if line + 1 < m.data.length then m.data[line + 1]?.getD 0 else m.endPos
  match m.data[line]? with
  | some start => some (start, stop)
  | none => none

end Pico
