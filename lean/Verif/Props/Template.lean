import Verif.Lemmas.Template
import Verif.Lemmas.ScriptCheck
import Verif.Props.Programs
import Verif.Props.Positions
/-!
# Text outside of the tags (C57)
-/
namespace Pico

/-- **C57** for templates whose blocks may extend over several pairs of tags: a template is parsed like the script in which
every text outside of the tags is replaced by `echo` with this text, and `<?=` by `echo`. Missing: what PHP does at the close
tag (`C57_fails`). -/
theorem C57_template_partial (src : Text) (ts : List Token) (ss : List Stmt) (h : Template 0 src ts) (hne : ts ≠ [])
    (hd : Derives .tops ts ss) : ∃ ss', eraseStmts ss' = ss ∧ Ends src (.ok ss') := by
  obtain ⟨n, toks, h1, h2⟩ := template_visible h
  exact source_parses src n toks ss h1 (by rw [h2]; exact hne) (by rw [h2]; exact hd)

theorem stmt_nonempty {o : Bool} {ts : List Token} {s : Stmt} (h : Derives (.stmt o) ts s) : ts ≠ [] := by
  cases h <;> simp

theorem top_nonempty {ts : List Token} {s : Stmt} (h : Derives .top ts s) : ts ≠ [] := by
  cases h with
  | t_stmt h => exact stmt_nonempty h
  | _ => simp

theorem tops_toks {ts : List Token} {ss : List Stmt} (h : Derives .tops ts ss) (hne : ss ≠ []) : ts ≠ [] := by
  cases h with
  | tops_nil => exact absurd rfl hne
  | tops_cons h1 _ => exact fun e => top_nonempty h1 (List.append_eq_nil_iff.1 e).1

/-- **C57** for templates with whole statements between the tags: the statements are those of the parts, in order, and
each text outside of the tags is echoed as it is. -/
theorem C57_page_partial (src : Text) (ss : List Stmt) (h : Page src ss) (hne : ss ≠ []) :
    ∃ ss', eraseStmts ss' = ss ∧ Ends src (.ok ss') := by
  obtain ⟨ts, h1, h2⟩ := page_template h
  exact C57_template_partial src ts ss h1 (tops_toks h2 hne) h2

/-! ## Examples -/

def openIf : List Item := wd c!"if" ++ sy c!"(" ++ vr c!"a" ++ sy c!")" ++ sy c!"{"
def closeIf : List Item := sy c!"}"

/-- A block over two pairs of tags. -/
example : Template 0 c!"<ul><?php if( $a){?><li><?php}?>" [.k .Echo, .encaps c!"<ul>", .k .SemiColon, .k .If, .k .ParenthesesOpen, .variable c!"a",
    .k .ParenthesesClose, .k .CurlyBracesOpen, .k .Echo, .encaps c!"<li>", .k .SemiColon, .k .CurlyBracesClose] :=
  .text c!"<ul>" nofun (by decide) (.inr (by decide)) (.code openIf (e := 1) (rest := c!"<li><?php}?>") (apartB_ok (by decide)) rfl
    (.text c!"<li>" nofun (by decide) (.inr (by decide)) (.code closeIf (rest := []) (apartB_ok (by decide)) rfl (.nil 0))))

/-- Its tokens are a program. -/
example : Derives .tops [.k .Echo, .encaps c!"<ul>", .k .SemiColon, .k .If, .k .ParenthesesOpen, .variable c!"a",
    .k .ParenthesesClose, .k .CurlyBracesOpen, .k .Echo, .encaps c!"<li>", .k .SemiColon, .k .CurlyBracesClose]
    [bareS (.echo [bare (.str c!"<ul>")]), bareS (.ite (bare (.var (.name c!"a"))) [bareS (.echo [bare (.str c!"<li>")])] [])] := by
  have hs : ∀ s : Text, Derives (.stmt false) [.k .Echo, .encaps s, .k .SemiColon] (bareS (.echo [bare (.str s)])) := fun s =>
    .s_echo (.exprs_one (.e_var (p := 0) (.v_str s (.a_nil false _))))
  exact .tops_cons (ts := [.k .Echo, .encaps c!"<ul>", .k .SemiColon]) (.t_stmt (hs _)) (.tops_cons (us := [])
    (.t_stmt (.s_if (cs := [.variable c!"a"]) (bs := [.k .CurlyBracesOpen, .k .Echo, .encaps c!"<li>", .k .SemiColon, .k .CurlyBracesClose]) (ts := [])
      (.e_var (p := 0) (.v_name _ (.a_nil false _)))
      (.b_block (ts := [.k .Echo, .encaps c!"<li>", .k .SemiColon]) (.stmts_cons (us := []) (hs _) .stmts_nil)) .if_none (.inl rfl))) .tops_nil)

/-- Whole statements between the tags, with `<?=`. -/
example : Page c!"<b><?= $x;?></b><?php return;?>\n" [bareS (.echo [bare (.str c!"<b>")]), bareS (.echo [bare (.var (.name c!"x"))]),
    bareS (.echo [bare (.str c!"</b>")]), bareS (.ret none), bareS (.echo [bare (.str c!"\n")])] :=
  .text c!"<b>" nofun (by decide) (.inr (by decide)) (.echo (vr c!"x" ++ sy c!";") (rest := c!"</b><?php return;?>\n")
    (ts := [.variable c!"x"]) (apartB_ok (by decide)) rfl rfl (.exprs_one (.e_var (p := 0) (.v_name _ (.a_nil false _))))
    (.text c!"</b>" nofun (by decide) (.inr (by decide)) (.code (wd c!"return" ++ sy c!";") (rest := c!"\n") (us := [bareS (.ret none)])
      (apartB_ok (by decide)) rfl (.tops_cons (us := []) (.t_stmt (.s_return .o_none)) .tops_nil)
      (.text c!"\n" nofun (by decide) (.inl rfl) .nil))))

/-! ## What the code does otherwise -/

/-- A script with nothing but blanks between its tags, followed by a line end and a text. -/
theorem newline_page (s : Text) (hs : ¬ c!"<?" <:+: s) : Page (c!"<?php ?>\n" ++ s) [bareS (.echo [bare (.str ('\n' :: s))])] := by
  have h : Page (('\n' :: s) ++ []) [bareS (.echo [bare (.str ('\n' :: s))])] := by
    refine .text ('\n' :: s) nofun ?_ (.inl rfl) .nil
    rintro ⟨a, b, e⟩
    cases a with
    | nil => cases e
    | cons x a => exact hs ⟨a, b, (List.cons.inj e).2⟩
  rw [List.append_nil] at h
  exact .code [.gap c!" "] (apartB_ok rfl) rfl .tops_nil h

/-- **C57** fails at the close tag. PHP drops a line end directly behind `?>`; here it is echoed, whatever text follows. A close tag ends a
statement; here `a<?= $x ?>b` is rejected. A comment ends at the close tag; here it swallows it and the text behind it. -/
theorem C57_fails :
    (∀ s : Text, ¬ c!"<?" <:+: s → ∃ ss, eraseStmts ss = [bareS (.echo [bare (.str ('\n' :: s))])] ∧
      Ends (c!"<?php ?>\n" ++ s) (.ok ss)) ∧
    (∃ e, Ends c!"a<?= $x ?>b" (.err e)) ∧
    (∃ ss, Ends c!"<?php return; // c ?>b" (.ok ss) ∧ eraseStmts ss = [bareS (.ret none)]) := by
  refine ⟨fun s hs => C57_page_partial _ _ (newline_page s hs) nofun, ?_, ?_⟩
  · obtain ⟨e, h, -⟩ := returns_err (n := 60) (src := c!"a<?= $x ?>b") (q := fun _ => true) (by decide +kernel)
    exact ⟨e, h⟩
  · obtain ⟨ss, h, h2⟩ := returns_ok (n := 60) (src := c!"<?php return; // c ?>b")
      (p := fun ss => match ss with | [.mk (.ret none) _] => true | _ => false) (by decide +kernel)
    refine ⟨ss, h, ?_⟩
    split at h2
    · rfl
    · cases h2

end Pico
