import Verif.Model.Basic
/-!
# String interner (src/interner.rs)

An `Rc<String>` is an allocation identity together with its text. The hash map is an association list:
`HashMap::get`/`insert` on keys compared by text (src/interner.rs:11-18, `RcStr` hashes and compares as its text).
-/
namespace Pico

/-- src/interner.rs:11-12 `RcStr(Rc<String>)`: allocation identity and text. -/
structure Handle where
  ptr : Nat
  text : Text
  deriving DecidableEq, Repr

/-- src/interner.rs:29-31 `Interner`. `next` is the allocator: the next fresh allocation identity. -/
structure Interner where
  strs : List Handle
  next : Nat
  deriving Repr

/-- src/interner.rs:34-36 `Interner::new`; the allocator may already have handed out other blocks. -/
def Interner.new (firstFree : Nat := 0) : Interner := ⟨[], firstFree⟩

/-- src/interner.rs:41-48 `Interner::intern`. -/
def Interner.intern (t : Interner) (s : Text) : Handle × Interner :=
  match t.strs.find? (fun h => h.text == s) with
  | some h => (h, t)
  | none =>
    let h : Handle := ⟨t.next, s⟩
    (h, ⟨h :: t.strs, t.next + 1⟩)

/-- A whole session: intern every string of the list in order, collecting the handles. -/
def Interner.internAll (t : Interner) : List Text → List Handle × Interner
  | [] => ([], t)
  | s :: ss =>
    let (h, t) := t.intern s
    let (hs, t) := t.internAll ss
    (h :: hs, t)

end Pico
