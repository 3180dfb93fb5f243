import Verif.Props.Agree
/-!
# Comments between an arrow and a reserved word (C38)
-/
namespace Pico

private theorem blank_one : Blank c!" " := by intro c hc; simp at hc; exact .inl hc

/-- `$a->`, a comment with the text `body`, `w` and a semicolon. -/
private def arrowItems (body w : Text) : List Item :=
  [.gap c!" ", .lex (.var c!"a"), .lex (.sym c!"->" .ObjectOp), .block body, .lex (.word w), .lex (.sym c!";" .SemiColon)]

private theorem arrow_script {body w : Text} (hb : body ≠ []) (hc : ¬ c!"*/" <:+: body) (h : isIdentifier w = true) (hy : w ≠ c!"yieldfrom") :
    Script (arrowItems body w) false := by
  refine ⟨⟨blank_one, rfl, rfl, (by decide : _ ∈ symbols), ⟨?_, nofun, nofun⟩, hb, hc, ⟨h, hy⟩, ⟨rfl, fun _ => ⟨fun _ => ?_, fun _ => by decide⟩⟩,
    (by decide : _ ∈ symbols), ⟨nofun, nofun, nofun⟩, trivial⟩, 0, rfl⟩
  · intro c hc
    obtain rfl : '/' = c := by simpa [render, Item.text] using hc
    decide
  · rintro ⟨b, r, hr, hb⟩
    cases b with
    | nil => cases hr
    | cons c b =>
      injection hr with h1 h2
      subst h1
      have := hb ';' (by simp)
      revert this
      decide

/-- A statement that consists of the access to a property. -/
private def isMember : List Stmt → Bool
  | [.mk (.expr (.mk (.objMember _ _) _)) _] => true
  | _ => false

private theorem isMember_erase (ss : List Stmt) : isMember (eraseStmts ss) = isMember ss := by
  match ss with
  | [] => rfl
  | [.mk k _] =>
    cases k with
    | expr e => cases e with | mk k _ => cases k <;> rfl
    | _ => rfl
  | .mk k _ :: .mk k' _ :: ss =>
    cases k with
    | expr e => cases e with | mk k _ => cases k <;> rfl
    | _ => rfl

/-- **C38** fails for every reserved word that is the name of a property, and every comment in front of it: with the comment, the source
is read differently, or rejected. -/
theorem C38_fails_class (w : Text) (k : Kw) (h : (w, k) ∈ reservedWords) (body : Text) (hb : body ≠ []) (hc : ¬ c!"*/" <:+: body) :
    ∃ r r', Ends (c!"<?php $a->" ++ w ++ c!";") r ∧ Ends (c!"<?php $a->/*" ++ body ++ c!"*/" ++ w ++ c!";") r' ∧ ¬ Agree r r' := by
  have htab : ∀ x ∈ reservedWords, isIdentifier x.1 = true ∧ x.1 ≠ c!"yieldfrom" := by decide +kernel
  have hwith : ∀ x ∈ reservedWords, (match parseStrN 60 (c!"<?php $a->" ++ x.1 ++ c!";") with
      | .ok ss => isMember ss
      | _ => false) = true := by decide +kernel
  have hwout : ∀ x ∈ reservedWords, (match parseStrN 60 (c!"<?php $a->/*x*/" ++ x.1 ++ c!";") with
      | .ok ss => !isMember ss
      | .err _ => true
      | _ => false) = true := by decide +kernel
  obtain ⟨h1, h2⟩ := htab _ h
  have h3 := hwith _ h
  have h4 := hwout _ h
  dsimp only at h1 h2 h3 h4
  have key : ∀ r0 : Outcome SpannedErr (List Stmt), Ends (c!"<?php $a->/*x*/" ++ w ++ c!";") r0 →
      ∃ r', Ends (c!"<?php $a->/*" ++ body ++ c!"*/" ++ w ++ c!";") r' ∧ Agree r0 r' := by
    intro r0 hr
    have e1 : scriptText (arrowItems c!"x" w) false = c!"<?php $a->/*x*/" ++ w ++ c!";" := by
      simp [scriptText, arrowItems, render, Item.text, Lexeme.text]
    have e2 : scriptText (arrowItems body w) false = c!"<?php $a->/*" ++ body ++ c!"*/" ++ w ++ c!";" := by
      simp [scriptText, arrowItems, render, Item.text, Lexeme.text]
    have := C38_script_partial (arrowItems c!"x" w) (arrowItems body w) false false (arrow_script nofun (by decide) h1 h2)
      (arrow_script hb hc h1 h2) rfl r0 (by rw [e1]; exact hr)
    rwa [e2] at this
  split at h3
  · rename_i ss hs
    refine ⟨.ok ss, ?_⟩
    split at h4
    · rename_i ss' hs'
      obtain ⟨r', k1, k2⟩ := key _ (Ends.of 60 hs' nofun)
      refine ⟨r', Ends.of 60 hs nofun, k1, fun ha => ?_⟩
      cases k2 with
      | ok e1 =>
        cases ha with
        | ok e2 =>
          have : isMember ss = isMember ss' := by rw [← isMember_erase ss, e2, ← e1, isMember_erase]
          rw [h3] at this
          rw [← this] at h4
          cases h4
    · rename_i e hs'
      obtain ⟨r', k1, k2⟩ := key _ (Ends.of 60 hs' nofun)
      refine ⟨r', Ends.of 60 hs nofun, k1, fun ha => ?_⟩
      cases k2
      cases ha
    · cases h4
  · cases h3

/-- `$a->list` and `$a->/* the list */list` meet the hypotheses. -/
example : (c!"list", Kw.List) ∈ reservedWords ∧ ¬ c!"*/" <:+: c!" the list " := by decide +kernel

end Pico
