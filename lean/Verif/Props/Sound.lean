import Verif.Lemmas.SndTop
import Verif.Lemmas.SndEdge
import Verif.Props.Reading
/-!
# Only the grammar and its listed relaxations are accepted (C49)

`DerivesX true` (Spec/Grammar.lean) is the grammar of the completeness theorems with 29 more rules, all named `x_..`.
-/
namespace Pico
open P

/-- The relaxed grammar contains the grammar. -/
theorem C49_grammar {c : Cat} {ts : List Token} {t : c.Tree} (h : Derives c ts t) : DerivesX true c ts t := by
  induction h
  case v_name => apply DerivesX.v_name <;> assumption
  case v_paren => apply DerivesX.v_paren <;> assumption
  case v_array => apply DerivesX.v_array <;> assumption
  case v_bracket => apply DerivesX.v_bracket <;> assumption
  case v_str => apply DerivesX.v_str <;> assumption
  case v_static => apply DerivesX.v_static <;> assumption
  case v_scall => apply DerivesX.v_scall <;> assumption
  case v_call => apply DerivesX.v_call <;> assumption
  case a_nil => apply DerivesX.a_nil <;> assumption
  case a_index => apply DerivesX.a_index <;> assumption
  case a_member => apply DerivesX.a_member <;> assumption
  case a_static => apply DerivesX.a_static <;> assumption
  case a_call => apply DerivesX.a_call <;> assumption
  case o_none => apply DerivesX.o_none <;> assumption
  case o_some => apply DerivesX.o_some <;> assumption
  case p_var => apply DerivesX.p_var <;> assumption
  case p_word => apply DerivesX.p_word <;> assumption
  case p_expr => apply DerivesX.p_expr <;> assumption
  case c_name => apply DerivesX.c_name <;> assumption
  case c_var => apply DerivesX.c_var <;> assumption
  case args_nil => apply DerivesX.args_nil <;> assumption
  case args_some => apply DerivesX.args_some <;> assumption
  case argl_one => apply DerivesX.argl_one <;> assumption
  case argl_unpack => apply DerivesX.argl_unpack <;> assumption
  case argl_cons => apply DerivesX.argl_cons <;> assumption
  case argl_cons_unpack => apply DerivesX.argl_cons_unpack <;> assumption
  case exprs_one => apply DerivesX.exprs_one <;> assumption
  case exprs_cons => apply DerivesX.exprs_cons <;> assumption
  case items_nil => apply DerivesX.items_nil <;> assumption
  case items_one => apply DerivesX.items_one <;> assumption
  case items_key => apply DerivesX.items_key <;> assumption
  case items_cons => apply DerivesX.items_cons <;> assumption
  case items_cons_key => apply DerivesX.items_cons_key <;> assumption
  case parts_nil => apply DerivesX.parts_nil <;> assumption
  case parts_text => apply DerivesX.parts_text <;> assumption
  case parts_var => apply DerivesX.parts_var <;> assumption
  case parts_brace => apply DerivesX.parts_brace <;> assumption
  case parts_dollar => apply DerivesX.parts_dollar <;> assumption
  case e_var => apply DerivesX.e_var <;> assumption
  case e_postInc => apply DerivesX.e_postInc <;> assumption
  case e_postDec => apply DerivesX.e_postDec <;> assumption
  case e_int => apply DerivesX.e_int <;> assumption
  case e_double => apply DerivesX.e_double <;> assumption
  case e_magic => apply DerivesX.e_magic <;> assumption
  case e_name => apply DerivesX.e_name <;> assumption
  case e_classConst => apply DerivesX.e_classConst <;> assumption
  case e_emptyString => apply DerivesX.e_emptyString <;> assumption
  case e_string => apply DerivesX.e_string <;> assumption
  case e_heredoc => apply DerivesX.e_heredoc <;> assumption
  case e_new => apply DerivesX.e_new <;> assumption
  case e_newArgs => apply DerivesX.e_newArgs <;> assumption
  case e_exit => apply DerivesX.e_exit <;> assumption
  case e_exitValue => apply DerivesX.e_exitValue <;> assumption
  case e_isset => apply DerivesX.e_isset <;> assumption
  case e_empty => apply DerivesX.e_empty <;> assumption
  case e_closure => apply DerivesX.e_closure <;> assumption
  case e_clone => apply DerivesX.e_clone <;> assumption
  case e_yield => apply DerivesX.e_yield <;> assumption
  case e_yieldValue => apply DerivesX.e_yieldValue <;> assumption
  case e_include => apply DerivesX.e_include <;> assumption
  case e_assign => apply DerivesX.e_assign <;> assumption
  case e_assignRef => apply DerivesX.e_assignRef <;> assumption
  case e_compound => apply DerivesX.e_compound <;> assumption
  case e_list => apply DerivesX.e_list <;> assumption
  case e_listRef => apply DerivesX.e_listRef <;> assumption
  case e_cast => apply DerivesX.e_cast <;> assumption
  case e_prefix => apply DerivesX.e_prefix <;> assumption
  case e_left => apply DerivesX.e_left <;> assumption
  case e_pow => apply DerivesX.e_pow <;> assumption
  case e_ternary => apply DerivesX.e_ternary <;> assumption
  case e_elvis => apply DerivesX.e_elvis <;> assumption
  case e_instance => apply DerivesX.e_instance <;> assumption
  case dflt_none => apply DerivesX.dflt_none <;> assumption
  case dflt_some => apply DerivesX.dflt_some <;> assumption
  case params_nil => apply DerivesX.params_nil <;> assumption
  case params_one => apply DerivesX.params_one <;> assumption
  case params_cons => apply DerivesX.params_cons <;> assumption
  case fn_body => apply DerivesX.fn_body <;> assumption
  case fn_abstract => apply DerivesX.fn_abstract <;> assumption
  case vars_one => apply DerivesX.vars_one <;> assumption
  case vars_cons => apply DerivesX.vars_cons <;> assumption
  case consts_one => apply DerivesX.consts_one <;> assumption
  case consts_cons => apply DerivesX.consts_cons <;> assumption
  case fv_plain => apply DerivesX.fv_plain <;> assumption
  case fv_ref => apply DerivesX.fv_ref <;> assumption
  case varl_one => apply DerivesX.varl_one <;> assumption
  case varl_cons => apply DerivesX.varl_cons <;> assumption
  case s_empty => apply DerivesX.s_empty <;> assumption
  case s_block => apply DerivesX.s_block <;> assumption
  case s_expr => apply DerivesX.s_expr <;> assumption
  case s_html => apply DerivesX.s_html <;> assumption
  case s_echo => apply DerivesX.s_echo <;> assumption
  case s_return => apply DerivesX.s_return <;> assumption
  case s_break => apply DerivesX.s_break <;> assumption
  case s_continue => apply DerivesX.s_continue <;> assumption
  case s_throw => apply DerivesX.s_throw <;> assumption
  case s_unset => apply DerivesX.s_unset <;> assumption
  case s_if => apply DerivesX.s_if <;> assumption
  case s_while => apply DerivesX.s_while <;> assumption
  case s_do => apply DerivesX.s_do <;> assumption
  case s_for => apply DerivesX.s_for <;> assumption
  case s_foreach => apply DerivesX.s_foreach <;> assumption
  case s_foreachKey => apply DerivesX.s_foreachKey <;> assumption
  case s_try => apply DerivesX.s_try <;> assumption
  case s_switch => apply DerivesX.s_switch <;> assumption
  case s_static => apply DerivesX.s_static <;> assumption
  case s_global => apply DerivesX.s_global <;> assumption
  case s_function => apply DerivesX.s_function <;> assumption
  case s_class => apply DerivesX.s_class <;> assumption
  case s_interface => apply DerivesX.s_interface <;> assumption
  case s_trait => apply DerivesX.s_trait <;> assumption
  case b_block => apply DerivesX.b_block <;> assumption
  case b_stmt => apply DerivesX.b_stmt <;> assumption
  case stmts_nil => apply DerivesX.stmts_nil <;> assumption
  case stmts_cons => apply DerivesX.stmts_cons <;> assumption
  case if_none => apply DerivesX.if_none <;> assumption
  case if_else => apply DerivesX.if_else <;> assumption
  case if_elseif => apply DerivesX.if_elseif <;> assumption
  case catches_nil => apply DerivesX.catches_nil <;> assumption
  case catches_cons => apply DerivesX.catches_cons <;> assumption
  case fin_none => apply DerivesX.fin_none <;> assumption
  case fin_some => apply DerivesX.fin_some <;> assumption
  case clauses_nil => apply DerivesX.clauses_nil <;> assumption
  case clauses_case => apply DerivesX.clauses_case <;> assumption
  case clauses_default => apply DerivesX.clauses_default <;> assumption
  case m_var => apply DerivesX.m_var <;> assumption
  case m_property => apply DerivesX.m_property <;> assumption
  case m_const => apply DerivesX.m_const <;> assumption
  case m_method => apply DerivesX.m_method <;> assumption
  case m_use => apply DerivesX.m_use <;> assumption
  case m_useRules => apply DerivesX.m_useRules <;> assumption
  case members_nil => apply DerivesX.members_nil <;> assumption
  case members_cons => apply DerivesX.members_cons <;> assumption
  case t_stmt => apply DerivesX.t_stmt <;> assumption
  case t_namespace => apply DerivesX.t_namespace <;> assumption
  case t_use => apply DerivesX.t_use <;> assumption
  case tops_nil => apply DerivesX.tops_nil <;> assumption
  case tops_cons => apply DerivesX.tops_cons <;> assumption
  case x_op => simp_all
  case x_apps => simp_all
  case x_opt => simp_all
  case x_yield => simp_all
  case x_ternary => simp_all
  case x_call => simp_all
  case x_scope => simp_all
  case x_cref => simp_all
  case x_crefStatic => simp_all
  case x_param => simp_all
  case x_paramCons => simp_all
  case x_params => simp_all
  case x_items => simp_all
  case x_stmts => simp_all
  case x_members => simp_all
  case x_parts => simp_all
  case x_class => simp_all
  case x_default => simp_all
  case x_use => simp_all
  case x_useRules => simp_all
  case x_useEmpty => simp_all
  case x_and => simp_all
  case x_postInc => simp_all
  case x_postDec => simp_all
  case x_part => simp_all
  case x_fetch => simp_all
  case x_ref => simp_all

/-- Whatever the tokens, well-formed or not: if they are accepted, they follow from the rules of the grammar and the rules
`x_..`, and the statements returned are those of the derivation. All tokens are used up. -/
theorem C49_tokens (m : LineMap) (n : Nat) (toks : List TokSpan) (ss : List Stmt) (h : parseTokensN n m toks = .ok ss) :
    DerivesX true .tops (visible toks) (eraseStmts ss) := by
  unfold parseTokensN at h
  dsimp only at h
  have hy := parseTopStatementList_snd (recN_snd (stripTokens toks) n) 0
  unfold GoS at hy
  split at h
  · rename_i ss' q e
    rw [e] at hy
    cases h
    obtain ⟨us, ⟨-, hs, -⟩, hq, hd⟩ := hy
    have hu : us = visible toks := by
      rw [visible_strip]
      simpa [upto, List.take_of_length_le hq] using hs.symm
    exact hu ▸ hd
  · cases h
  · cases h
  · exfalso
    split at h
    · split at h
      · unfold spannedErr at h
        split at h
        · cases h
        · split at h <;> cases h
      · cases h
    · split at h
      · unfold spannedErr at h
        split at h
        · cases h
        · split at h <;> cases h
      · cases h

theorem ok_tokens {src : Text} {ss : List Stmt} (h : Ends src (.ok ss)) :
    ∃ n m ts, spansOf n src = some ts ∧ parseTokensN n m ts = .ok ss := by
  obtain ⟨n, h, -⟩ := h
  unfold parseStrN at h
  cases e : lexAll n n (Tz.new src) [] with
  | ok x =>
    obtain ⟨ts, t⟩ := x
    rw [e] at h
    exact ⟨n, _, ts, by simp [spansOf, e], h⟩
  | err x =>
    rw [e] at h
    exfalso
    dsimp only at h
    split at h
    · cases h
    · unfold spannedErr at h
      split at h
      · cases h
      · split at h <;> cases h
  | panic p => rw [e] at h; cases h
  | oof => rw [e] at h; cases h

/-- The same for sources. -/
theorem C49_source (src : Text) (ss : List Stmt) (h : Ends src (.ok ss)) :
    ∃ n ts, spansOf n src = some ts ∧ DerivesX true .tops (visible ts) (eraseStmts ss) := by
  obtain ⟨n, m, ts, h1, h2⟩ := ok_tokens h
  exact ⟨n, ts, h1, C49_tokens m n ts ss h2⟩

/-! ## What this excludes -/

/-- An accepted source begins with a token statements begin with and ends with `;` or `}` (after removing tags and
comments, and with `echo` and `;` put around text outside of tags). -/
theorem C49_edges (src : Text) (ss : List Stmt) (h : Ends src (.ok ss)) :
    ∃ n ts, spansOf n src = some ts ∧ (visible ts = [] ∨
      (∃ t us, visible ts = t :: us ∧ beginsTop t = true) ∧ ∃ us t, visible ts = us ++ [t] ∧ endsStmt t = true) := by
  obtain ⟨n, ts, h1, h2⟩ := C49_source src ss h
  refine ⟨n, ts, h1, ?_⟩
  rcases (derives_begin h2 : _ ∨ _) with hb | hb
  · exact .inl hb
  · rcases (derives_end h2 : _ ∨ _) with he | he
    · exact .inl he
    · exact .inr ⟨hb, he⟩

/-! ## Examples -/

/-- A source that needs none of the additional rules. -/
theorem example_sound : ∃ ss, Ends c!"<?php if ($a) { f(1); } else echo -2 + 3 * 4;" (.ok ss) := by
  have h : (match parseStrN 80 c!"<?php if ($a) { f(1); } else echo -2 + 3 * 4;" with
      | .ok _ => true
      | _ => false) = true := by decide +kernel
  split at h
  · rename_i ss he
    exact ⟨ss, Ends.of 80 he (by simp)⟩
  · cases h

/-- A source that needs `x_op`. The operator `*` loses its operand, and then takes `1 + 2` for it: the tree is that of
`(1 + 2) * 4`. -/
theorem example_lax : ∃ ss, Ends c!"<?php 1 + 2 * ( * 4;" (.ok ss) ∧
    eraseStmts ss = [bareS (.expr (bare (.binary .Mul (bare (.binary .Add (bare (.int 1)) (bare (.int 2)))) (bare (.int 4)))))] := by
  have h : (match parseStrN 60 c!"<?php 1 + 2 * ( * 4;" with
      | .ok [.mk (.expr (.mk (.binary .Mul (.mk (.binary .Add (.mk (.int 1) _) (.mk (.int 2) _)) _) (.mk (.int 4) _)) _)) _] => true
      | _ => false) = true := by decide +kernel
  split at h
  · rename_i he
    exact ⟨_, Ends.of 60 he (by simp), rfl⟩
  · cases h

/-- Its derivation. -/
example : DerivesX true .tops [.int 1, .k .Plus, .int 2, .k .Mul, .k .ParenthesesOpen, .k .Mul, .int 4, .k .SemiColon]
    [bareS (.expr (bare (.binary .Mul (bare (.binary .Add (bare (.int 1)) (bare (.int 2)))) (bare (.int 4)))))] := by
  have h1 : DerivesX true (.expr 0 13) [.int 1, .k .Plus, .int 2] (bare (.binary .Add (bare (.int 1)) (bare (.int 2)))) :=
    .e_left (lv := 13) (kw := .Plus) (ts := [.int 1]) (us := [.int 2]) rfl rfl (by decide) (.e_int 1) (by decide) (.e_int 2)
  have h2 : DerivesX true (.expr 13 17) [.int 1, .k .Plus, .int 2, .k .Mul, .k .ParenthesesOpen] _ :=
    .x_op rfl .Mul 14 [.k .ParenthesesOpen] (Nn.noStray (by nn)) h1 rfl
  have h3 : DerivesX true (.expr 0 14) [.int 1, .k .Plus, .int 2, .k .Mul, .k .ParenthesesOpen, .k .Mul, .int 4] _ :=
    .e_left (lv := 14) (kw := .Mul) (us := [.int 4]) rfl rfl (by decide) h2 (by decide) (.e_int 4)
  exact .tops_cons (us := []) (.t_stmt (.s_expr h3)) .tops_nil

/-- Statements do not begin with `goto`, `print` or `const` (which PHP has and this parser does not), nor with `}`. -/
example : [Kw.Goto, .Print, .Const, .CurlyBracesClose, .Case, .Else, .Mul].all (fun k => !beginsTop (.k k)) = true := rfl

end Pico
