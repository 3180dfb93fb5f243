import Verif.Lemmas.GramTop
import Verif.Lemmas.GramStart
/-!
# Every phrase of the grammar is parsed to its tree
-/
namespace Pico
open P

variable {toks : List TokSpan}

/-- What the parser does on phrases of each category. -/
def Claim (toks : List TokSpan) : (c : Cat) → List Token → c.Tree → Prop
  | .expr p s => ExprOK toks p s
  | .var => VarOK toks
  | .apps simple b => AppsOK toks simple b
  | .opt => OptOK toks
  | .prop => PropOK toks
  | .cref => CrefOK toks
  | .args => ArgsOK toks
  | .argl => ArglOK toks
  | .exprs => ExprsOK toks
  | .items => ItemsOK toks
  | .parts => fun ts ps => (ts = [] → ps = []) ∧ PartsOK toks ts ps
  | .dflt => DfltOK toks
  | .params => ParamsOK toks
  | .fn c a r => FnOK toks c a r
  | .vars => VarsOK toks
  | .consts => ConstsOK toks
  | .fvar => FvarOK toks
  | .varl => VarlOK toks
  | .stmt o => StmtOK toks o
  | .body o => BodyOK toks o
  | .stmts => StmtsOK toks
  | .ifTail => IfTailOK toks
  | .catches => CatchesOK toks
  | .fin => FinOK toks
  | .clauses => ClausesOK toks
  | .member => MemberOK toks
  | .members => MembersOK toks
  | .top => TopOK toks
  | .tops => TopsOK toks

theorem derives_claim (hP : Placed toks) {c : Cat} {ts : List Token} {x : c.Tree} (h : Derives c ts x) :
    Claim toks c ts x := by
  induction h with
  | v_name n h ih => exact var_name n ih
  | v_paren h h' ih ih' => exact var_paren ih ih'
  | v_array h h' ih ih' => exact var_array ih ih'
  | v_bracket h h' ih ih' => exact var_bracket ih ih'
  | v_str x h ih => exact var_str x ih
  | v_static n hc h ih => exact var_static hP n hc ih
  | v_scall hc hm ha h iha ih => exact var_scall hP hc hm iha ih
  | v_call abs ns id ha h iha ih => exact var_call hP abs ns id iha ih
  | a_nil simple b => exact apps_nil simple b
  | a_index h h' ih ih' => exact apps_index ih ih'
  | a_member h h' ih ih' => exact apps_member ih ih'
  | a_static n h ih => exact apps_static n ih
  | a_call h h' ih ih' => exact apps_call ih ih'
  | o_none => exact opt_none
  | o_some h ih => exact opt_some ih
  | p_var n => exact prop_var n
  | p_word w => exact prop_word w
  | p_expr h ih => exact prop_expr ih
  | c_name h => exact cref_name hP h
  | c_var n h ih => exact cref_var n ih
  | args_nil => exact args_nil
  | args_some h ih => exact args_some ih
  | argl_one h ih => exact argl_one ih
  | argl_unpack h ih => exact argl_unpack ih
  | argl_cons h h' ih ih' => exact argl_cons ih ih'
  | argl_cons_unpack h h' ih ih' => exact argl_cons_unpack ih ih'
  | exprs_one h ih => exact exprs_one ih
  | exprs_cons h h' ih ih' => exact exprs_cons ih ih'
  | items_nil => exact items_nil
  | items_one h ih => exact items_one ih
  | items_key h h' ih ih' => exact items_key ih ih'
  | items_cons h h' ih ih' => exact items_cons ih ih'
  | items_cons_key h h' h'' ih ih' ih'' => exact items_cons_key ih ih' ih''
  | parts_nil => exact ⟨fun _ => rfl, parts_nil⟩
  | parts_text x h ih => exact ⟨by simp, parts_text x ih.2⟩
  | parts_var n h hs h' ih ih' => exact ⟨by simp, parts_var n ih hs ih'.2⟩
  | parts_brace h h' ih ih' => exact ⟨by simp, parts_brace ih ih'.2⟩
  | parts_dollar hn h h' ih ih' => exact ⟨by simp, parts_dollar hn ih ih'.2⟩
  | e_var h ih => exact expr_var ih
  | e_postInc h ih => exact expr_postInc ih
  | e_postDec h ih => exact expr_postDec ih
  | e_int v => exact expr_int v
  | e_double l => exact expr_double l
  | e_magic h => exact expr_magic h
  | e_name h => exact expr_name hP h
  | e_classConst hc hm => exact expr_classConst hP hc hm
  | e_emptyString => exact expr_emptyString
  | e_string h hp ih =>
    refine expr_string ih.2 hp ?_
    intro h0
    rw [ih.1 h0] at hp
    simp [leaves] at hp
  | e_heredoc h hp ih => exact expr_heredoc ih.2 hp
  | e_new h ih => exact expr_new ih
  | e_newArgs h h' ih ih' => exact expr_newArgs ih ih'
  | e_exit => exact expr_exit
  | e_exitValue h ih => exact expr_exitValue ih
  | e_isset h ih => exact expr_isset ih
  | e_empty h ih => exact expr_empty ih
  | e_closure h ih => exact expr_closure ih
  | e_clone h ih => exact expr_clone ih
  | e_yield => exact expr_yield opt_none
  | e_yieldValue h ih => exact expr_yield (opt_some ih)
  | e_include hk h ih => exact expr_include hk ih
  | e_assign h h' ih ih' => exact expr_assign ih ih'
  | e_assignRef h h' ih ih' => exact expr_assignRef ih ih'
  | e_compound hk h h' ih ih' => exact expr_compound hk ih ih'
  | e_list h h' ih ih' => exact expr_list ih ih'
  | e_listRef h h' ih ih' => exact expr_listRef ih ih'
  | e_cast hk h ih => exact expr_cast hk ih
  | e_prefix hk h ih => exact expr_prefix hk ih
  | e_left hk hl hp h hs h' ih ih' => exact expr_left hk hl hp ih hs ih'
  | e_pow hp h hs h' ih ih' => exact expr_pow hp ih hs ih'
  | e_ternary hp h hs h' h'' ih ih' ih'' => exact expr_ternary hp ih hs ih' ih''
  | e_elvis hp h hs h' ih ih' => exact expr_elvis hp ih hs ih'
  | e_instance hp h hs hi h' ih ih' => exact expr_instance hp ih hs hi ih'
  | dflt_none => exact dflt_none
  | dflt_some h ih => exact dflt_some ih
  | params_nil => exact params_nil
  | params_one n r v ht h ih => exact params_one hP n r v ht ih
  | params_cons n r v ht h h' ih ih' => exact params_cons hP n r v ht ih ih'
  | fn_body h hu h' ih ih' => exact fn_body ih hu ih'
  | fn_abstract h ih => exact fn_abstract ih
  | vars_one n h ih => exact vars_one n ih
  | vars_cons n h h' ih ih' => exact vars_cons n ih ih'
  | consts_one hn h ih => exact consts_one hn ih
  | consts_cons hn h h' ih ih' => exact consts_cons hn ih ih'
  | fv_plain h ih => exact fv_plain ih
  | fv_ref n h ih => exact fv_ref hP n ih
  | varl_one h ih => exact varl_one ih
  | varl_cons h h' ih ih' => exact varl_cons ih ih'
  | s_empty => exact s_empty
  | s_block h ih => exact s_block ih
  | s_expr h ih => exact s_expr ih (derives_start h)
  | s_html x => exact s_html x
  | s_echo h ih => exact s_echo ih
  | s_return h ih => exact s_return ih
  | s_break h ih => exact s_break ih
  | s_continue h ih => exact s_continue ih
  | s_throw h ih => exact s_throw ih
  | s_unset h ih => exact s_unset ih
  | s_if h h' h'' ho ih ih' ih'' => exact s_if ih ih' ih'' ho
  | s_while h h' ih ih' => exact s_while ih ih'
  | s_do h' h ih' ih => exact s_do ih' ih
  | s_for hi hc hl h' ihi ihc ihl ih' => exact s_for ihi ihc ihl ih'
  | s_foreach h hv h' ih ihv ih' => exact s_foreach ih ihv ih'
  | s_foreachKey h hk hv h' ih ihk ihv ih' => exact s_foreachKey ih ihk ihv ih'
  | s_try h hc hf ih ihc ihf => exact s_try ih ihc ihf
  | s_switch h h' ih ih' => exact s_switch ih ih'
  | s_static h ih => exact s_static ih
  | s_global h => exact s_global h
  | s_function n h ih => exact s_function n ih
  | s_class ms n hx hi hm ih => exact s_class hP ms n hx hi ih
  | s_interface n hx hm ih => exact s_interface hP n hx ih
  | s_trait n hm ih => exact s_trait n ih
  | b_block h ih => exact body_block ih
  | b_stmt h hb ih => exact b_stmt ih hb
  | stmts_nil => exact stmts_nil
  | stmts_cons h h' ih ih' => exact stmts_cons ih ih'
  | if_none => exact ifTail_none
  | if_else h ih => exact ifTail_else ih
  | if_elseif h h' h'' ho ih ih' ih'' => exact ifTail_elseif ih ih' ih'' ho
  | catches_nil => exact catches_nil
  | catches_cons abs ns id n h h' ih ih' => exact catches_cons hP abs ns id n ih ih'
  | fin_none => exact fin_none
  | fin_some h ih => exact fin_some ih
  | clauses_nil => exact clauses_nil
  | clauses_case colon h h' h'' ih ih' ih'' => exact clauses_case colon ih ih' ih''
  | clauses_default colon h' hb h'' ih' ih'' => exact clauses_default colon ih' hb ih''
  | m_var h ih => exact m_var ih
  | m_property ms h ih => exact m_property ms ih
  | m_const ms h ih => exact m_const ms ih
  | m_method ms r n h ih => exact m_method ms r n ih
  | m_use h => exact m_use hP h
  | m_useRules h hr hn => exact m_useRules hP h hr hn
  | members_nil => exact members_nil
  | members_cons h h' ih ih' => exact members_cons ih ih'
  | t_stmt h ih => exact t_stmt ih
  | t_namespace ns id => exact t_namespace ns id
  | t_use h => exact t_use h
  | tops_nil => exact tops_nil
  | tops_cons h h' ih ih' => exact tops_cons ih ih'
  | _ => contradiction

/-- The parser reads a program of the grammar completely and builds its tree. -/
theorem top_parses (hP : Placed toks) (hne : toks ≠ []) {ss : List Stmt}
    (h : Derives .tops (toks.map TokSpan.tok) ss) {n : Nat} (hn : 2 * toks.length + 2 ≤ n) :
    ∃ ss', eraseStmts ss' = ss ∧ parseTopStatementList (recN n) toks 0 = .ok ss' toks.length := by
  obtain ⟨ss', hss, hl⟩ := (derives_claim hP h : TopsOK toks _ ss).2 hne
  refine ⟨ss', hss, ?_⟩
  rw [top_theRec n toks hn]
  have hs : Step toks (parseTopStatementList theRec) (toks.map TokSpan.tok) ss' [] := by
    have h1 : 1 ≤ toks.length := by
      cases toks with
      | nil => exact absurd rfl hne
      | cons => simp
    rw [parseTopStatementList_eq]
    stepc tokCount_step
    stepc (subP_step h1)
    exact (hl []).loop
  have := (hs ⟨[], rfl⟩).1
  simpa [posOf] using this

end Pico
