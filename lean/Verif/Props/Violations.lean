import Verif.Lemmas.TokenizerMono
import Verif.Spec.Outcome
import Verif.Spec.Erase
/-!
# Properties the code does not have

Each theorem negates one of the expected properties; the witness is a short PHP source.
-/
namespace Pico

/-- The result of `parse_str` is unique. -/
theorem Ends.unique {src : Text} {r r' : Outcome SpannedErr (List Stmt)} (h : Ends src r) (h' : Ends src r') :
    r = r' := by
  obtain ⟨n, h, hne⟩ := h
  obtain ⟨n', h', hne'⟩ := h'
  rcases Nat.le_total n n' with hle | hle
  · rw [← h', parseStrN_le hle src (by rw [h]; exact hne), h]
  · rw [← h, parseStrN_le hle src (by rw [h']; exact hne'), h']

theorem Ends.of {src : Text} {r : Outcome SpannedErr (List Stmt)} (n : Nat) (h : parseStrN n src = r)
    (hne : r ≠ .oof) : Ends src r := ⟨n, h, hne⟩

/-- C07 fails: `parse_str` aborts on a stray closing brace (and on the other sources of `panicSources`). -/
theorem C07_fails : ¬ ∀ (src : Text) (p : Panic), ¬ Ends src (.panic p) := by
  intro h
  obtain ⟨p, hp⟩ := Outcome.exists_panic (o := parseStrN 60 c!"<?php }") (by decide +kernel)
  exact h _ p (Ends.of 60 hp (by simp))

/-- Sources on which `parse_str` aborts, each for a different reason. -/
def panicSources : List Text :=
  [c!"<?php }", c!"", c!"<?php", c!"<?php 08;", c!"<?php 99999999999999999999;", c!"<?php .",
   c!"<?php \"\\e\";", c!"<?php \"\\u{41}\";", c!"<?php \"\\xzz\";", c!"<?php b\"", c!"<?php \"$a[0]\";",
   c!"<?php \"${a\";", c!"<?php $a = 1 + foo(", c!"<?php function f($a {",
   c!"<?php if(a) b; else c; else d;", c!"<?php $a instanceof B instanceof C;", c!"<?php $$a;",
   c!"<?php (unset)$a;", c!"<?php ä;", c!"<?php class A { use B { c as protected d; } }", c!"<?php A::yield;",
   c!"<?php { $a = 1+\"{$a ;}\" name(1 'x'"]

theorem C07_sources (src : Text) (h : src ∈ panicSources) : ∃ p, Ends src (.panic p) := by
  have hall : ∀ src ∈ panicSources, (parseStrN 60 src).isPanic = true := by decide +kernel
  obtain ⟨p, hp⟩ := Outcome.exists_panic (hall src h)
  exact ⟨p, Ends.of 60 hp (by simp)⟩

/-- C29 fails: a closing brace without an opening one aborts instead of being reported. -/
theorem C29_fails : ∃ p, Ends c!"<?php }" (.panic p) :=
  C07_sources _ (by decide)

/-- C11 fails: two spellings of a reserved word that differ only in case give different tokens. -/
theorem C11_fails : ¬ ∀ w w' : Text, w.map lowerAscii = w'.map lowerAscii →
    ∀ n, tokensOf n (c!"<?php " ++ w ++ c!" 1;") = tokensOf n (c!"<?php " ++ w' ++ c!" 1;") := by
  intro h
  have h1 := h c!"echo" c!"ECHO" (by decide) 20
  exact absurd h1 (by decide +kernel)

/-- C11 fails: the documented (upper case) spelling of a magic constant is an ordinary name. -/
theorem C11_magic_fails : tokensOf 20 c!"<?php __LINE__;" =
      some [.k .OpenTag, .string c!"__LINE__", .k .SemiColon] ∧
    tokensOf 20 c!"<?php __line__;" = some [.k .OpenTag, .k .MagicLine, .k .SemiColon] := by
  decide +kernel

/-- C16 fails: the empty comment `/**/` does not end at its `*/`. -/
theorem C16_fails : tokensOf 20 c!"<?php /**/ 1; /* */" =
    some [.k .OpenTag, .comment c!"/ 1; /* "] := by decide +kernel

/-- C22 fails: `1+;` is accepted, the operator is dropped. -/
theorem C22_fails : ∃ stmts stmts', Ends c!"<?php 1+;" (.ok stmts) ∧ Ends c!"<?php 1;" (.ok stmts') ∧
    eraseStmts stmts = eraseStmts stmts' := by
  have h : ∀ src ∈ [c!"<?php 1+;", c!"<?php 1;"], (match parseStrN 60 src with
      | .ok [.mk (.expr (.mk (.int 1) _)) _] => true
      | _ => false) = true := by decide +kernel
  have key : ∀ src ∈ [c!"<?php 1+;", c!"<?php 1;"], ∃ s s', Ends src (.ok [.mk (.expr (.mk (.int 1) s)) s']) := by
    intro src hs
    have h' := h src hs
    split at h'
    · rename_i s s' he
      exact ⟨s, s', Ends.of 60 he (by simp)⟩
    · cases h'
  obtain ⟨a, b, h1⟩ := key c!"<?php 1+;" (by decide)
  obtain ⟨c, d, h2⟩ := key c!"<?php 1;" (by decide)
  exact ⟨_, _, h1, h2, rfl⟩

/-- C22 fails: a call whose parenthesis is not closed disappears, together with its first argument. -/
theorem C22_fails_call : ∃ stmts stmts', Ends c!"<?php foo(1 2;" (.ok stmts) ∧ Ends c!"<?php 2;" (.ok stmts') ∧
    eraseStmts stmts = eraseStmts stmts' := by
  have h : ∀ src ∈ [c!"<?php foo(1 2;", c!"<?php 2;"], (match parseStrN 60 src with
      | .ok [.mk (.expr (.mk (.int 2) _)) _] => true
      | _ => false) = true := by decide +kernel
  have key : ∀ src ∈ [c!"<?php foo(1 2;", c!"<?php 2;"], ∃ s s', Ends src (.ok [.mk (.expr (.mk (.int 2) s)) s']) := by
    intro src hs
    have h' := h src hs
    split at h'
    · rename_i s s' he
      exact ⟨s, s', Ends.of 60 he (by simp)⟩
    · cases h'
  obtain ⟨a, b, h1⟩ := key c!"<?php foo(1 2;" (by decide)
  obtain ⟨c, d, h2⟩ := key c!"<?php 2;" (by decide)
  exact ⟨_, _, h1, h2, rfl⟩

/-- C23 fails: an empty `default` branch disappears from the tree. -/
theorem C23_fails : ∃ e body s, Ends c!"<?php switch(1){case 2: f(); default:}"
    (.ok [.mk (.switch e [.mk [.mk (.int 2) ⟨21, 22, none⟩] false body]) s]) := by
  have h : (match parseStrN 60 c!"<?php switch(1){case 2: f(); default:}" with
      | .ok [.mk (.switch _ [.mk [.mk (.int v) s] false _]) _] => decide (v = 2 ∧ s = ⟨21, 22, none⟩)
      | _ => false) = true := by decide +kernel
  split at h
  · rename_i e v s b s' he
    obtain ⟨rfl, rfl⟩ := of_decide_eq_true h
    exact ⟨_, _, _, Ends.of 60 he (by simp)⟩
  · cases h

/-- C27 fails: formatting the error of this source with its own text aborts. -/
theorem C27_fails (dbg : List Token → Text) : ∃ e, Ends c!"<?php foo 0x1;" (.err e) ∧
    e.errorMessage dbg (some c!"<?php foo 0x1;") = none := by
  have h : (match parseStrN 60 c!"<?php foo 0x1;" with
      | .err e => decide (e.start = 10 ∧ e.stop = 1)
      | _ => false) = true := by decide +kernel
  split at h
  · rename_i e he
    obtain ⟨h1, h2⟩ := of_decide_eq_true h
    refine ⟨e, Ends.of 60 he (by simp), ?_⟩
    unfold SpannedErr.errorMessage
    dsimp only
    split
    · rfl
    · rw [h1, h2]; split <;> rfl
  · cases h

/-- C30 fails: a hexadecimal literal gets a byte range that ends before it starts. -/
theorem C30_fails : ∃ toks, spansOf 20 c!"<?php 0xff;" = some toks ∧ ∃ t ∈ toks, t.span.stop < t.span.start := by
  refine ⟨_, (by decide +kernel : spansOf 20 c!"<?php 0xff;" =
    some [⟨.k .OpenTag, ⟨0, 5, none⟩⟩, ⟨.int 255, ⟨6, 2, none⟩⟩, ⟨.k .SemiColon, ⟨10, 11, none⟩⟩]), ?_⟩
  decide

/-- C34 fails: `( int )` is a cast with blanks inside, but not with newlines inside. -/
theorem C34_fails : tokensOf 20 c!"<?php ( int ) $a;" =
      some [.k .OpenTag, .k .CastInt, .variable c!"a", .k .SemiColon] ∧
    tokensOf 20 c!"<?php (\nint\n) $a;" =
      some [.k .OpenTag, .k .ParenthesesOpen, .string c!"int", .k .ParenthesesClose, .variable c!"a",
        .k .SemiColon] := by decide +kernel

/-- C21 (and C20) fail: `exit;` is printed as `exit();`, which is rejected. -/
theorem C21_fails (dbl : Text → Text) : ∃ stmts text e, Ends c!"<?php exit;" (.ok stmts) ∧
    rewriteFile dbl stmts = some text ∧ Ends text (.err e) := by
  have h : (match parseStrN 60 c!"<?php exit;" with
      | .ok [.mk (.expr (.mk (.exit none) _)) _] => true
      | _ => false) = true := by decide +kernel
  split at h
  · rename_i s s' he
    obtain ⟨e, hx⟩ := Outcome.exists_err (o := parseStrN 60 c!"<?php\nexit();\n\n?>") (by decide +kernel)
    exact ⟨_, _, e, Ends.of 60 he (by simp), rfl, Ends.of 60 hx (by simp)⟩
  · cases h

/-- C14 fails: a string of two backslashes is printed as an unterminated literal. -/
theorem C14_fails (dbl : Text → Text) (sp : Span) :
    printExprToString dbl (.mk (.str c!"\\\\") sp) = some c!"'\\\\\\'" ∧
    tokensOf 20 (c!"<?php " ++ c!"'\\\\\\'" ++ c!";") = none := by
  refine ⟨rfl, by decide +kernel⟩

end Pico
