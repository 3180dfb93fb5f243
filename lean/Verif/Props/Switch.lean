import Verif.Props.Programs
/-!
# What becomes of every switch (C23)

`C23_switch_partial` leaves out `default` clauses without statements. Here they are admitted.
-/
namespace Pico

/-- The clauses between the braces of a switch, as they are written: a label, `none` for `default`, and its statements, of which there may
be none. -/
inductive Clauses : List Token → List (Option Expr × List Stmt) → Prop
  | nil : Clauses [] []
  | case {s : Nat} {es bs ts : List Token} {e : Expr} {b : List Stmt} {cl : List (Option Expr × List Stmt)} (colon : Bool)
      (h : Derives (.expr 0 s) es e) (h' : Derives .stmts bs b) (h'' : Clauses ts cl) :
      Clauses (.k .Case :: (es ++ .k (if colon then .Colon else .SemiColon) :: (bs ++ ts))) ((some e, b) :: cl)
  | default {bs ts : List Token} {b : List Stmt} {cl : List (Option Expr × List Stmt)} (colon : Bool) (h' : Derives .stmts bs b)
      (h'' : Clauses ts cl) :
      Clauses (.k .Default :: .k (if colon then .Colon else .SemiColon) :: (bs ++ ts)) ((none, b) :: cl)

/-- The clauses without the `default` clauses that have no statements. -/
def withoutEmptyDefault (cl : List (Option Expr × List Stmt)) : List (Option Expr × List Stmt) :=
  cl.filter fun c => c.1.isSome || !c.2.isEmpty

section
open P
variable {toks : List TokSpan}

private theorem clauses_dropped {bs ts : List Token} (colon : Bool) {cl : List (Option Expr × List Stmt)} (h' : StmtsOK toks bs [])
    (h'' : ClausesOK toks ts cl) :
    ClausesOK toks (.k .Default :: .k (if colon then .Colon else .SemiColon) :: (bs ++ ts)) cl := by
  refine ⟨.inr ⟨_, _, rfl, .inr (.inr rfl)⟩, fun r st => ?_⟩
  obtain ⟨b', err, hb, hbs⟩ := h'.run (r := ts ++ .k .CurlyBracesClose :: r) (clauses_end h'')
  rw [eraseStmts_nil] at hb
  subst hb
  obtain ⟨st', hst, hl⟩ := h''.2 r st
  refine ⟨st', hst, ?_⟩
  norml
  refine Loops.more (l' := ts ++ .k .CurlyBracesClose :: r) ?_ (by simp; omega) hl
  unfold switchStep
  refine Step.bind (a := some none)
    (l' := .k (if colon then .Colon else .SemiColon) :: (bs ++ (ts ++ .k .CurlyBracesClose :: r))) ?_ ?_
  · unfold parseCaseHead
    stepc (eats_miss (by nokw))
    stepc eats_hit
    exact Step.pure
  dsimp only
  stepc (sep_step colon _)
  stepc hbs
  exact Step.pure

private theorem clauses_ok (hP : Placed toks) {ts : List Token} {cl : List (Option Expr × List Stmt)} (h : Clauses ts cl) :
    ClausesOK toks ts (withoutEmptyDefault cl) := by
  induction h with
  | nil => exact clauses_nil
  | case colon h h' h'' ih => exact clauses_case colon (derives_claim hP h) (derives_claim hP h') ih
  | @default bs ts b cl colon h' h'' ih =>
    cases b with
    | nil => exact clauses_dropped colon (derives_claim hP h') ih
    | cons s b => exact clauses_default colon (derives_claim hP h') (by simp) ih

private theorem tops_parse (hne : toks ≠ []) {ss : List Stmt} (h : TopsOK toks (toks.map TokSpan.tok) ss) {n : Nat}
    (hn : 2 * toks.length + 2 ≤ n) :
    ∃ ss', eraseStmts ss' = ss ∧ parseTopStatementList (recN n) toks 0 = .ok ss' toks.length := by
  obtain ⟨ss', hss, hl⟩ := h.2 hne
  refine ⟨ss', hss, ?_⟩
  rw [top_theRec n toks hn]
  have hs : Step toks (parseTopStatementList theRec) (toks.map TokSpan.tok) ss' [] := by
    have h1 : 1 ≤ toks.length := by
      cases toks with
      | nil => exact absurd rfl hne
      | cons => simp
    rw [parseTopStatementList_eq]
    stepc tokCount_step
    stepc (subP_step h1)
    exact (hl []).loop
  have := (hs ⟨[], rfl⟩).1
  simpa [posOf] using this
end

/-- **C23** for every switch: what is built are the cases of the switch without its empty `default` clauses. -/
theorem C23_dropped (m : LineMap) (toks : List TokSpan) (s : Nat) (es : List Token) (e : Expr) (ts : List Token)
    (cl : List (Option Expr × List Stmt)) (hP : Sourced toks) (he : Derives (.expr 0 s) es e) (hc : Clauses ts cl)
    (hv : visible toks = .k .Switch :: .k .ParenthesesOpen :: (es ++ .k .ParenthesesClose ::
      .k .CurlyBracesOpen :: (ts ++ [.k .CurlyBracesClose]))) :
    ParsesTo m toks [bareS (.switch e (casesOf [] false (withoutEmptyDefault cl)))] := by
  have hne : visible toks ≠ [] := by simp [hv]
  rw [visible_strip] at hne hv
  have hne' : stripTokens toks ≠ [] := fun h => hne (by simp [h])
  have hs := s_switch (toks := stripTokens toks) (derives_claim hP.placed he) (clauses_ok hP.placed hc)
  have ht := tops_cons (t_stmt hs) tops_nil
  rw [List.append_nil, ← hv] at ht
  obtain ⟨ss', h1, h2⟩ := tops_parse hne' ht (Nat.le_refl _)
  refine ⟨ss', h1, fun n hn => ?_⟩
  have hl := stripTokens_length toks
  replace hn : 2 * (stripTokens toks).length + 2 ≤ n := by omega
  have h3 : parseTokensN (2 * (stripTokens toks).length + 2) m toks = .ok ss' := by
    unfold parseTokensN
    simp only [h2]
  rw [C09_fuel m toks _ n hn (by simp [h3]), h3]

private theorem casesOf_flag : ∀ (cl : List (Option Expr × List Stmt)) (p : List Expr), (∀ c ∈ cl, c.1 ≠ none) →
    casesOf p true cl ≠ casesOf p false cl
  | [], p, _, h => by
    have := congrArg List.length h
    simp [casesOf] at this
  | (none, b) :: cl, p, hc, _ => hc (none, b) List.mem_cons_self rfl
  | (some e, []) :: cl, p, hc, h => by
    simp only [casesOf] at h
    exact casesOf_flag cl _ (fun c hc' => hc c (List.mem_cons_of_mem _ hc')) h
  | (some e, s :: b) :: cl, p, hc, h => by
    simp only [casesOf, List.cons.injEq, Case.mk.injEq] at h
    exact absurd h.1.2.1 (by decide)

private theorem withoutEmptyDefault_self {cl : List (Option Expr × List Stmt)} (h : (none, []) ∉ cl) : withoutEmptyDefault cl = cl := by
  refine List.filter_eq_self.2 fun c hc => ?_
  obtain ⟨l, b⟩ := c
  cases l with
  | some e => rfl
  | none =>
    cases b with
    | nil => exact absurd hc h
    | cons s b => rfl

private theorem casesOf_dropped : ∀ (cl : List (Option Expr × List Stmt)) (p : List Expr), (cl.filter fun c => c.1.isNone).length ≤ 1 →
    (none, []) ∈ cl → casesOf p false cl ≠ casesOf p false (withoutEmptyDefault cl)
  | [], _, _, hm, _ => by cases hm
  | (some e, []) :: cl, p, h1, hm, h => by
    have hm' : (none, []) ∈ cl := by simpa using hm
    refine casesOf_dropped cl (p ++ [e]) (by simpa using h1) hm' ?_
    simpa [withoutEmptyDefault, casesOf] using h
  | (some e, s :: b) :: cl, p, h1, hm, h => by
    have hm' : (none, []) ∈ cl := by simpa using hm
    refine casesOf_dropped cl [] (by simpa using h1) hm' ?_
    simpa [withoutEmptyDefault, casesOf] using h
  | (none, b) :: cl, p, h1, hm, h => by
    have hno : ∀ c ∈ cl, c.1 ≠ none := by
      intro c hc hn
      have : 0 < (cl.filter fun c => c.1.isNone).length := List.length_pos_of_mem (List.mem_filter.2 ⟨hc, by simp [hn]⟩)
      simp at h1
      simp [h1 _ _ hc] at hn
    have hcl : withoutEmptyDefault cl = cl := withoutEmptyDefault_self fun hm' => hno _ hm' rfl
    cases b with
    | nil =>
      have e : withoutEmptyDefault ((none, []) :: cl) = withoutEmptyDefault cl := by simp [withoutEmptyDefault]
      rw [e, hcl] at h
      simp only [casesOf] at h
      exact casesOf_flag cl p hno h
    | cons s b =>
      have hm' : (none, []) ∈ cl := by simpa using hm
      exact hno _ hm' rfl

/-- **C23** exactly: a switch with at most one `default` is read as it is written if and only if its `default` has statements. -/
theorem C23_exact (is : List Item) (closed : Bool) (s : Nat) (es : List Token) (e : Expr) (ts : List Token)
    (cl : List (Option Expr × List Stmt)) (h : Script is closed) (he : Derives (.expr 0 s) es e) (hc : Clauses ts cl)
    (hone : (cl.filter fun c => c.1.isNone).length ≤ 1)
    (hv : codeToks is = .k .Switch :: .k .ParenthesesOpen :: (es ++ .k .ParenthesesClose ::
      .k .CurlyBracesOpen :: (ts ++ [.k .CurlyBracesClose]))) :
    ScriptMeans is closed [bareS (.switch e (casesOf [] false cl))] ↔ (none, []) ∉ cl := by
  have hm : ScriptMeans is closed [bareS (.switch e (casesOf [] false (withoutEmptyDefault cl)))] :=
    script_of_tokens h fun m toks hP hx => C23_dropped m toks s es e ts cl hP he hc (hx.trans hv)
  constructor
  · rintro ⟨ss, h1, h2⟩ hmem
    obtain ⟨ss', h3, h4⟩ := hm
    have := h2.unique h4
    cases this
    rw [h3] at h1
    injection h1 with h1 _
    injection h1 with h1 _
    injection h1 with _ h1
    exact casesOf_dropped cl [] hone hmem h1.symm
  · intro hn
    rwa [withoutEmptyDefault_self hn] at hm

/-- `switch ($a) { case $b: return; default: }` meets the hypotheses, and has an empty `default`. -/
example :
    let is := wd c!"switch" ++ sy c!"(" ++ vr c!"a" ++ sy c!")" ++ sy c!"{" ++ wd c!"case" ++ vr c!"b" ++ sy c!":" ++
      wd c!"return" ++ sy c!";" ++ wd c!"default" ++ sy c!":" ++ sy c!"}"
    let v := fun (n : Text) => (bare (.var (.name n)) : Expr)
    let cl : List (Option Expr × List Stmt) := [(some (v c!"b"), [bareS (.ret none)]), (none, [])]
    let ts : List Token := [.k .Case, .variable c!"b", .k .Colon, .k .Return, .k .SemiColon, .k .Default, .k .Colon]
    Script is false ∧ Clauses ts cl ∧ (cl.filter fun c => c.1.isNone).length ≤ 1 ∧ (none, []) ∈ cl ∧
      codeToks is = .k .Switch :: .k .ParenthesesOpen :: ([.variable c!"a"] ++ .k .ParenthesesClose ::
        .k .CurlyBracesOpen :: (ts ++ [.k .CurlyBracesClose])) := by
  refine ⟨script_check (by decide), ?_, by simp, by simp, rfl⟩
  exact .case true (.e_var (p := 0) (.v_name _ (.a_nil false _))) (.stmts_cons (.s_return .o_none) .stmts_nil)
    (.default true .stmts_nil .nil)

end Pico
