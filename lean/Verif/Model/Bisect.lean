import Verif.Model.Basic
/-!
# The bisecting tester (ci/tester/main.rs:97-141)

The files are numbered; a file system maps every number to a content. Parsing a file may rewrite it and
reports success or failure; both may depend on the whole file system and on whether the check command runs.
-/
namespace Pico

/-- Contents of the files, by index. -/
abbrev Files := Nat → Text

/-- Overwrite one file. -/
def Files.write (fs : Files) (i : Nat) (t : Text) : Files := fun j => if j = i then t else fs j

/-- ci/tester/main.rs:72-95 `run_parse_file`: given the file system, the file and `no_check`, the content
written back to the file (if any) and whether the run succeeded (a timeout counts as failure). -/
abbrev RunFile := Files → Nat → Bool → Option Text × Bool

/-- ci/tester/main.rs:118-125: run the files `i .. i + n`, the check only on the last one; stop at the first
failure. Result: the file system and whether all passed. -/
def runRange (run : RunFile) : (n i : Nat) → Files → Files × Bool
  | 0, _, fs => (fs, true)
  | n + 1, i, fs =>
    let r := run fs i (n != 0)
    let fs' := match r.1 with
      | some t => fs.write i t
      | none => fs
    if r.2 then runRange run n (i + 1) fs' else (fs', false)

/-- ci/tester/main.rs:128-130: write the saved sources back to the files `i .. i + n`. -/
def revertRange (saved : Files) : (n i : Nat) → Files → Files
  | 0, _, fs => fs
  | n + 1, i, fs => revertRange saved n (i + 1) (fs.write i (saved i))

/-- ci/tester/main.rs:113-138: the search loop; the fuel counts iterations. -/
def bisectLoop (run : RunFile) (saved : Files) : (fuel low high : Nat) → Files → Option (Nat × Nat × Files)
  | 0, _, _, _ => none
  | fuel + 1, low, high, fs =>
    if high - low > 1 then
      let mid := (low + high) / 2
      let (fs1, passes) := runRange run (mid - low) low fs
      let fs2 := revertRange saved (mid - low) low fs1
      if passes then bisectLoop run saved fuel mid high fs2 else bisectLoop run saved fuel low mid fs2
    else some (low, high, fs)

/-- What the tester prints at the end: `bad: ..` and `good: ..`, or an index panic at `files[low]` (nothing
printed) or at `files[high]` (after the `bad` line was printed). -/
inductive BisectOut
  | report (bad good : Nat) (fs : Files)
  | panicIndex (printedBad : Option Nat) (fs : Files)
  | oof

/-- ci/tester/main.rs:103-140 for `len` files. -/
def bisect (run : RunFile) (len : Nat) (fs : Files) : BisectOut :=
  match bisectLoop run fs (len + 1) 0 len fs with
  | none => .oof
  | some (low, high, fs') =>
    if low < len then
      if high < len then .report low high fs' else .panicIndex (some low) fs'
    else .panicIndex none fs'

/-- ci/tester/main.rs:163-199 `parse_file` with its caller: `rw` parses and prints the content of the file
(`none` if that fails), `check` is the check command, run on the files after the rewrite. -/
def stdRun (rw : Text → Option Text) (check : Files → Bool) : RunFile := fun fs i noCheck =>
  match rw (fs i) with
  | none => (none, false)
  | some t => (some t, noCheck || check (fs.write i t))

end Pico
