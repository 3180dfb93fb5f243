import Verif.Spec.Template
import Verif.Lemmas.LexItem
import Verif.Props.Source
/-!
# The tokens of templates
-/
namespace Pico
open T

variable {t : Tz} {d : Nat} {rest : Text}

theorem okNext_close (c : Char) : okNext c!"?>" c = true := by
  have h : ∀ e ∈ otherTable, (e.text.map lowerAscii).take 2 = c!"?>" → (e.text.map lowerAscii).length ≤ 2 := by decide +kernel
  unfold okNext
  refine List.all_eq_true.2 fun e he => bne_iff_ne.2 fun hc => ?_
  have h2 : (e.text.map lowerAscii).take 2 = c!"?>" := by
    have := congrArg (List.take 2) hc
    rwa [List.take_take] at this
  have h3 := h e he h2
  have := congrArg List.length hc
  rw [List.length_take] at this
  simp only [List.length_append, List.length_cons, List.length_nil] at this
  omega

theorem close_tag {g : Text} (hg : Blank g) (hat : At t (g ++ (c!"?>" ++ rest))) (hm : Mode t false d) (n : Nat) :
    ∃ sp t', nextToken (n + 1) t = .ok ⟨.k .CloseTag, sp⟩ t' ∧ At t' rest ∧ t'.st.state = .initial ∧
      t'.st.stack = List.replicate d .inScripting := by
  have hmv := Moved.ws hat hg.all
  have hat2 : At (t.ws g) (c!"?>" ++ rest) := hmv.at'
  have hrun := plain_scripting (nextToken n) n (i := c!"?>" ++ rest) hat hg.all rfl rfl
  obtain ⟨dc, hd⟩ := op_table (e := ⟨Kw.repr .CloseTag, .CloseTag, .set .initial⟩)
    (t' := { (t.ws g).adv 2 with st := { ((t.ws g).adv 2).st with state := .initial } }) hat2 rfl
    (by intro c hc; cases hc; decide) (by simp) (by intro c hc; cases hc; decide) rfl (fun c _ => okNext_close c) (by rfl) (by rfl)
  exact ⟨_, _, next_scripting hm.state (hrun.trans hd), At.adv hat2, rfl, hmv.stack.trans hm.stack⟩

/-- The close tag behind a script. -/
theorem close_part {prop : Bool} (ha : Ahead t (c!"?>" ++ rest)) (hm : Ready t prop d) (n : Nat) :
    ∃ sp t', nextToken (n + 3) t = .ok ⟨.k .CloseTag, sp⟩ t' ∧ At t' rest ∧ t'.st.state = .initial ∧
      t'.st.stack = List.replicate d .inScripting := by
  obtain ⟨g, hg, hat⟩ := ha.lex (by decide)
  obtain ⟨t1, n, e, hm, -, hat1, -, -⟩ := hm.enter n
  rw [e]
  replace hat := hat1 _ hat
  cases prop with
  | false => exact close_tag hg hat hm (n + 1)
  | true =>
    obtain ⟨t', ht, hat', hm', -⟩ := lexProp_other (i := c!"?>" ++ rest) hg hat hm rfl
      (by intro c hc; cases hc; exact .inl (by decide)) rfl (n + 1)
    obtain ⟨sp, t'', h, h'⟩ := close_tag (g := []) nofun hat' hm' n
    exact ⟨sp, t'', ht.trans h, h'⟩

/-- An open tag. -/
theorem open_part (w : Text) (k : Kw) (hw : w = c!"<?php" ∧ k = .OpenTag ∨ w = c!"<?=" ∧ k = .OpenTagWithEcho)
    (hat : At t (w ++ rest)) (hs : t.st.state = .initial) (hk : t.st.stack = List.replicate d .inScripting) (n : Nat) :
    ∃ sp t', nextToken (n + 1) t = .ok ⟨.k k, sp⟩ t' ∧ At t' rest ∧ Mode t' false d ∧ 2 ≤ t'.st.srcPos := by
  rcases hw with ⟨rfl, rfl⟩ | ⟨rfl, rfl⟩
  · have hm := matchFirst_some [⟨Kw.repr .OpenTagWithEcho, .OpenTagWithEcho, .set .inScripting⟩,
        ⟨Kw.repr .OpenTag, .OpenTag, .set .inScripting⟩, ⟨c!"<?", .OpenTag, .set .inScripting⟩] (by decide) hat
        (e := ⟨Kw.repr .OpenTag, .OpenTag, .set .inScripting⟩)
        (t' := { t.adv 5 with st := { (t.adv 5).st with state := .inScripting } }) (by rfl) (by rfl)
    refine ⟨mkSpan t.st.srcPos (t.st.srcPos + 5), { t.adv 5 with st := { (t.adv 5).st with state := .inScripting } },
      next_initial hs ?_, At.adv hat, ⟨rfl, hk⟩, show 2 ≤ t.st.srcPos + 5 by omega⟩
    · unfold initialToken
      refine (bind_ok (input_at hat)).trans ?_
      rw [if_neg (by simp)]
      exact orElse_ok hm
  · have hm := matchFirst_some [⟨Kw.repr .OpenTagWithEcho, .OpenTagWithEcho, .set .inScripting⟩,
        ⟨Kw.repr .OpenTag, .OpenTag, .set .inScripting⟩, ⟨c!"<?", .OpenTag, .set .inScripting⟩] (by decide) hat
        (e := ⟨Kw.repr .OpenTagWithEcho, .OpenTagWithEcho, .set .inScripting⟩)
        (t' := { t.adv 3 with st := { (t.adv 3).st with state := .inScripting } }) (by rfl) (by rfl)
    refine ⟨mkSpan t.st.srcPos (t.st.srcPos + 3), { t.adv 3 with st := { (t.adv 3).st with state := .inScripting } },
      next_initial hs ?_, At.adv hat, ⟨rfl, hk⟩, show 2 ≤ t.st.srcPos + 3 by omega⟩
    · unfold initialToken
      refine (bind_ok (input_at hat)).trans ?_
      rw [if_neg (by simp)]
      exact orElse_ok hm

theorem no_entry {s rest : Text} (hne : s ≠ []) (h : ¬ c!"<?" <:+: s) (hr : rest = [] ∨ c!"<?" <+: rest) :
    findEntry [⟨Kw.repr .OpenTagWithEcho, .OpenTagWithEcho, .set .inScripting⟩,
      ⟨Kw.repr .OpenTag, .OpenTag, .set .inScripting⟩, ⟨c!"<?", .OpenTag, .set .inScripting⟩] (s ++ rest) = none := by
  unfold findEntry
  rw [List.find?_eq_none]
  intro e he hs
  obtain ⟨q, hq, hq'⟩ := startsWithCi_split hs
  have h2 : c!"<?" <+: e.text.map lowerAscii := by
    clear hq hq' hs
    revert e
    decide
  have h3 : c!"<?" <+: s ++ rest := by rw [hq]; exact h2.trans (List.prefix_append _ _)
  match s, hne with
  | [c], _ =>
    rcases hr with rfl | ⟨r, rfl⟩
    · exact h (by simpa using h3.isInfix)
    · obtain ⟨q, hq⟩ := h3
      simp at hq
  | a :: b :: s, _ =>
    obtain ⟨q, hq⟩ := h3
    simp only [List.cons_append, List.nil_append, List.cons.injEq] at hq
    obtain ⟨rfl, rfl, -⟩ := hq
    exact h ⟨[], s, rfl⟩

/-- Text outside of the tags. -/
theorem text_part {s : Text} (hne : s ≠ []) (h : ¬ c!"<?" <:+: s) (hr : rest = [] ∨ c!"<?" <+: rest)
    (hat : At t (s ++ rest)) (hs : t.st.state = .initial) (n : Nat) :
    ∃ sp t', nextToken (n + 1) t = .ok ⟨.inlineHtml s, sp⟩ t' ∧ At t' rest ∧ t'.st.state = .initial ∧ t'.st.stack = t.st.stack := by
  refine ⟨mkSpan t.st.srcPos (t.st.srcPos + byteLen s), t.adv (byteLen s), next_initial hs ?_, At.adv hat, hs, rfl⟩
  unfold initialToken
  refine (bind_ok (input_at hat)).trans ?_
  rw [if_neg (by simp [hne])]
  refine (orElse_none (matchFirst_none _ hat (no_entry hne h hr))).trans ?_
  refine (bind_ok (input_at hat)).trans ?_
  have hp := byteLen_pos hne
  rcases hr with rfl | ⟨r, rfl⟩
  · simp only [List.append_nil, beforeSub_none h]
    rw [if_pos (by simp; omega)]
    exact (bind_ok inputPos_at).trans (bind_ok (advanceBytes_at hat))
  · simp only [show s ++ (c!"<?" ++ r) = s ++ '<' :: '?' :: r from rfl, beforeSub_found (a := '<') (b := '?') (by decide) h]
    rw [if_pos (by simp; omega)]
    exact (bind_ok inputPos_at).trans (bind_ok (advanceBytes_at hat))

theorem seen_items {is : List Item} {tail : Text} (ha : Apart false is tail) : (toks false is).flatMap seenAs = codeToks is :=
  strip_all ha.ordinary

theorem run_template {src : Text} {ts : List Token} (h : Template d src ts) (n : Nat) : ∀ t acc, At t src → t.st.state = .initial →
    t.st.stack = List.replicate d .inScripting → Inv t →
    ∃ out k t', (out.map TokSpan.tok).flatMap seenAs = ts ∧ lexAll (n + 3) k t acc = .ok (acc ++ out, t') := by
  induction h with
  | nil d =>
    intro t acc hat hs hk hi
    obtain ⟨sp, t', he⟩ := initial_end hat hs (n + 2)
    refine ⟨[], 1, t', rfl, ?_⟩
    unfold lexAll
    rw [he]
    simp
  | text s hne hns hr h ih =>
    intro t acc hat hs hk hi
    obtain ⟨sp, t1, h1, h2, h3, h4⟩ := text_part hne hns hr hat hs (n + 2)
    obtain ⟨out, k, t', g1, g2⟩ := ih t1 (acc ++ [⟨.inlineHtml s, sp⟩]) h2 h3 (h4.trans hk) (hi.next h1)
    refine ⟨⟨.inlineHtml s, sp⟩ :: out, k + 1, t', by simp [seenAs, g1], ?_⟩
    rw [lexAll_step h1 nofun, g2]
    simp
  | @code d e rest ts is ha hb h ih =>
    intro t acc hat hs hk hi
    rw [List.append_assoc, List.append_assoc] at hat
    obtain ⟨sp, t1, h1, h2, h3, hp⟩ := open_part c!"<?php" .OpenTag (.inl ⟨rfl, rfl⟩) hat hs hk (n + 2)
    obtain ⟨out, t2, f1, f2, f3, f4, -⟩ := run_items is (c!"?>" ++ rest) n e t1 false d (.of_at h2) ⟨hi.next h1, hp, .inl h3⟩ ha hb (acc ++ [⟨.k .OpenTag, sp⟩])
    obtain ⟨sp2, t3, h5, h6, h7, h8⟩ := close_part f3 f4 n
    obtain ⟨out', k, t', g1, g2⟩ := ih t3 (acc ++ [⟨.k .OpenTag, sp⟩] ++ out ++ [⟨.k .CloseTag, sp2⟩]) h6 h7 h8 (f4.inv.next h5)
    refine ⟨⟨.k .OpenTag, sp⟩ :: (out ++ ⟨.k .CloseTag, sp2⟩ :: out'), k + 1 + out.length + 1, t', ?_, ?_⟩
    · simp only [List.map_cons, List.map_append, List.flatMap_cons, List.flatMap_append, f1, seen_items ha, g1]
      rfl
    · rw [lexAll_step h1 nofun, f2, lexAll_step h5 nofun, g2]
      simp
  | @echo d e rest ts is ha hb h ih =>
    intro t acc hat hs hk hi
    rw [List.append_assoc, List.append_assoc] at hat
    obtain ⟨sp, t1, h1, h2, h3, hp⟩ := open_part c!"<?=" .OpenTagWithEcho (.inr ⟨rfl, rfl⟩) hat hs hk (n + 2)
    obtain ⟨out, t2, f1, f2, f3, f4, -⟩ := run_items is (c!"?>" ++ rest) n e t1 false d (.of_at h2) ⟨hi.next h1, hp, .inl h3⟩ ha hb (acc ++ [⟨.k .OpenTagWithEcho, sp⟩])
    obtain ⟨sp2, t3, h5, h6, h7, h8⟩ := close_part f3 f4 n
    obtain ⟨out', k, t', g1, g2⟩ := ih t3 (acc ++ [⟨.k .OpenTagWithEcho, sp⟩] ++ out ++ [⟨.k .CloseTag, sp2⟩]) h6 h7 h8 (f4.inv.next h5)
    refine ⟨⟨.k .OpenTagWithEcho, sp⟩ :: (out ++ ⟨.k .CloseTag, sp2⟩ :: out'), k + 1 + out.length + 1, t', ?_, ?_⟩
    · simp only [List.map_cons, List.map_append, List.flatMap_cons, List.flatMap_append, f1, seen_items ha, g1]
      rfl
    · rw [lexAll_step h1 nofun, f2, lexAll_step h5 nofun, g2]
      simp
  | @last d e is ha hb =>
    intro t acc hat hs hk hi
    obtain ⟨sp, t1, h1, h2, h3, hp⟩ := open_part c!"<?php" .OpenTag (.inl ⟨rfl, rfl⟩) hat hs hk (n + 2)
    obtain ⟨out, t2, f1, f2, f3, f4, -⟩ := run_items is [] n e t1 false d (.of_at (by rw [List.append_nil]; exact h2)) ⟨hi.next h1, hp, .inl h3⟩ ha hb (acc ++ [⟨.k .OpenTag, sp⟩])
    obtain ⟨sp2, t3, he⟩ := end_items f3 f4 n
    refine ⟨⟨.k .OpenTag, sp⟩ :: out, 1 + out.length + 1, t3, ?_, ?_⟩
    · simp only [List.map_cons, List.flatMap_cons, f1, seen_items ha]
      rfl
    · rw [lexAll_step h1 nofun, f2]
      unfold lexAll
      rw [he]
      simp

/-- What the parser sees of a template. -/
theorem template_visible {src : Text} {ts : List Token} (h : Template 0 src ts) : ∃ n toks, spansOf n src = some toks ∧ visible toks = ts := by
  obtain ⟨out, k, t', h1, h2⟩ := run_template h 0 (Tz.new src) [] (dropBytes_zero src) rfl rfl (inv_new src)
  refine ⟨max 3 k, out, ?_, by rw [visible_eq, h1]⟩
  have := (lexAll_mono (f := 0 + 3) (f' := max 3 k) (by omega) (n := k) (n' := max 3 k) (by omega) (Tz.new src) []).resolve_left (by rw [h2]; nofun)
  unfold spansOf
  rw [← this, h2]
  rfl

theorem tops_append {ts us : List Token} {ss vs : List Stmt} (h : Derives .tops ts ss) (h' : Derives .tops us vs) :
    Derives .tops (ts ++ us) (ss ++ vs) := by
  match h with
  | .tops_nil => exact h'
  | .tops_cons h1 h2 =>
    rw [List.append_assoc]
    exact .tops_cons h1 (tops_append h2 h')

/-- A page is a template, and its tokens form a program. -/
theorem page_template {src : Text} {ss : List Stmt} (h : Page src ss) : ∃ ts, Template 0 src ts ∧ Derives .tops ts ss := by
  induction h with
  | nil => exact ⟨[], .nil 0, .tops_nil⟩
  | text s hne hs hr h ih =>
    obtain ⟨ts, h1, h2⟩ := ih
    exact ⟨_, .text s hne hs hr h1, .tops_cons (ts := [.k .Echo, .encaps s, .k .SemiColon])
      (.t_stmt (.s_echo (.exprs_one (.e_var (p := 0) (.v_str s (.a_nil false _)))))) h2⟩
  | code is ha hb hd h ih =>
    obtain ⟨ts, h1, h2⟩ := ih
    exact ⟨_, .code is ha hb h1, tops_append hd h2⟩
  | echo is ha hb hc hd h ih =>
    obtain ⟨ts, h1, h2⟩ := ih
    refine ⟨_, .echo is ha hb h1, ?_⟩
    rw [hc]
    exact .tops_cons (ts := .k .Echo :: (_ ++ [.k .SemiColon])) (.t_stmt (.s_echo hd)) h2

end Pico
