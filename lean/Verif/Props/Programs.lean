import Verif.Props.Source
import Verif.Props.Violations
import Verif.Lemmas.ScriptCheck

/-!
# The theorems about token sequences, for scripts (C07, C11, C19, C23, C24, C26, C32, C33)

A script is written with any blanks and comments between its lexemes (`Script`, Spec/Source.lean). Its `codeToks` are
what the theorems of Props/Grammar.lean speak about.
-/

namespace Pico

/-- The script is accepted and its tree is `ss` up to positions. -/
def ScriptMeans (is : List Item) (closed : Bool) (ss : List Stmt) : Prop :=
  ∃ ss', eraseStmts ss' = ss ∧ Ends (scriptText is closed) (.ok ss')

theorem script_of_tokens {is : List Item} {closed : Bool} {ss : List Stmt} (h : Script is closed)
    (hp : ∀ m toks, Sourced toks → visible toks = codeToks is → ParsesTo m toks ss) : ScriptMeans is closed ss := by
  obtain ⟨n, ts, h1, h2⟩ := script_visible is closed h
  exact source_of_tokens _ n ts ss h1 fun m hP => hp m ts hP h2

theorem script_stmt {is : List Item} {closed : Bool} {o : Bool} {s : Stmt} (h : Script is closed)
    (hd : Derives (.stmt o) (codeToks is) s) (hne : codeToks is ≠ []) : ScriptMeans is closed [s] :=
  script_of_tokens h fun _ _ hP hx => stmt_parses hP (hx ▸ hd) (hx ▸ hne)

/-- **C19** from the source: a script `return x₀ o₁ x₁ ... oₙ xₙ;` means the one grouping prescribed by the table. -/
theorem C19_source (is : List Item) (closed : Bool) (q : OpSeq) (h : Script is closed) (hok : q.ok)
    (hv : codeToks is = .k .Return :: (q.toks ++ [.k .SemiColon])) :
    ∃ t : OpTree, t.seq = q ∧ t.byTable ∧ (∀ t' : OpTree, t'.seq = q → t'.byTable → t' = t) ∧
      ScriptMeans is closed [bareS (.ret (some t.tree))] := by
  obtain ⟨t, ht, hb⟩ := C19_exists q hok
  subst ht
  exact ⟨t, rfl, hb, fun t' e h => C19_unique t' t (e ▸ hok) e h hb,
    script_of_tokens h fun m toks hP he => C19_precedence m toks t hP hok hb (he.trans hv)⟩

/-- `return $a - $b * $c;` meets the hypotheses. -/
example :
    let is := wd c!"return" ++ vr c!"a" ++ sy c!"-" ++ vr c!"b" ++ sy c!"*" ++ vr c!"c" ++ sy c!";"
    let q : OpSeq := ⟨varOperand c!"a", [(.bin .Minus, varOperand c!"b"), (.bin .Mul, varOperand c!"c")]⟩
    scriptText is true = c!"<?php return $a- $b* $c;?>" ∧ Script is true ∧ q.ok ∧
      codeToks is = .k .Return :: (q.toks ++ [.k .SemiColon]) := by
  refine ⟨rfl, script_check (by decide), ⟨varOperand_ok _, ?_⟩, rfl⟩
  intro y hy
  simp only [List.mem_cons, List.not_mem_nil, or_false] at hy
  rcases hy with rfl | rfl <;> exact ⟨.inl rfl, varOperand_ok _⟩

/-- **C23** from the source (partial, see `C23_switch_partial`). -/
theorem C23_source_partial (is : List Item) (closed : Bool) (s : Nat) (es : List Token) (e : Expr) (ts : List Token)
    (gs : List Group) (tail : List Expr) (h : Script is closed) (hg : ∀ g ∈ gs, g.body ≠ [])
    (he : Derives (.expr 0 s) es e)
    (hc : Derives .clauses ts (gs.flatMap Group.clauses ++ tail.map (fun e => (some e, []))))
    (hv : codeToks is = .k .Switch :: .k .ParenthesesOpen :: (es ++ .k .ParenthesesClose ::
      .k .CurlyBracesOpen :: (ts ++ [.k .CurlyBracesClose]))) :
    ScriptMeans is closed [bareS (.switch e (gs.map Group.case ++ tail.map (fun e => .mk [e] false [])))] :=
  script_of_tokens h fun m toks hP hx => C23_switch_partial m toks s es e ts gs tail hP hg he hc (hx.trans hv)

/-- `switch ($a) { case $b: return; case $c: }` meets the hypotheses. -/
example :
    let is := wd c!"switch" ++ sy c!"(" ++ vr c!"a" ++ sy c!")" ++ sy c!"{" ++ wd c!"case" ++ vr c!"b" ++ sy c!":" ++
      wd c!"return" ++ sy c!";" ++ wd c!"case" ++ vr c!"c" ++ sy c!":" ++ sy c!"}"
    let v := fun (n : Text) => (bare (.var (.name n)) : Expr)
    let gs : List Group := [⟨[], some (v c!"b"), [bareS (.ret none)]⟩]
    let ts : List Token := [.k .Case, .variable c!"b", .k .Colon, .k .Return, .k .SemiColon, .k .Case, .variable c!"c",
      .k .Colon]
    Script is false ∧ (∀ g ∈ gs, g.body ≠ []) ∧
      Derives .clauses ts (gs.flatMap Group.clauses ++ [v c!"c"].map (fun e => (some e, []))) ∧
      codeToks is = .k .Switch :: .k .ParenthesesOpen :: ([.variable c!"a"] ++ .k .ParenthesesClose ::
        .k .CurlyBracesOpen :: (ts ++ [.k .CurlyBracesClose])) := by
  refine ⟨script_check (by decide), by simp, ?_, rfl⟩
  exact .clauses_case true (.e_var (p := 0) (.v_name _ (.a_nil false _))) (.stmts_cons (.s_return .o_none) .stmts_nil)
    (.clauses_case true (.e_var (p := 0) (.v_name _ (.a_nil false _))) .stmts_nil .clauses_nil)

/-- **C24** from the source. -/
theorem C24_source (is : List Item) (closed : Bool) (b : Branch) (bs : List (Bool × Branch)) (e : Option ElseBranch)
    (h : Script is closed) (hc : chainOk b bs e) (hv : codeToks is = .k .If :: (b.toks ++ chainToks bs e)) :
    ScriptMeans is closed [bareS (.ite b.cond b.body (chainTree bs e))] :=
  script_of_tokens h fun m toks hP hx => C24_chain m toks b bs e hP hc (hx.trans hv)

/-- `if ($a) return; elseif ($b) return; else { }` meets the hypotheses. -/
example :
    let is := wd c!"if" ++ sy c!"(" ++ vr c!"a" ++ sy c!")" ++ wd c!"return" ++ sy c!";" ++ wd c!"elseif" ++ sy c!"(" ++
      vr c!"b" ++ sy c!")" ++ wd c!"return" ++ sy c!";" ++ wd c!"else" ++ sy c!"{" ++ sy c!"}"
    let br := fun (n : Text) => (⟨[.variable n], bare (.var (.name n)), [.k .Return, .k .SemiColon],
      [bareS (.ret none)], false⟩ : Branch)
    let e : Option ElseBranch := some ⟨[.k .CurlyBracesOpen, .k .CurlyBracesClose], [], false⟩
    Script is false ∧ chainOk (br c!"a") [(false, br c!"b")] e ∧
      codeToks is = .k .If :: ((br c!"a").toks ++ chainToks [(false, br c!"b")] e) := by
  have hv : ∀ n : Text, ∃ s, Derives (.expr 0 s) [.variable n] (bare (.var (.name n))) :=
    fun c => ⟨_, .e_var (.v_name _ (.a_nil false _))⟩
  have hr : Derives (.stmt false) [.k .Return, .k .SemiColon] (bareS (.ret none)) := .s_return .o_none
  exact ⟨script_check (by decide), ⟨⟨hv _, .b_stmt hr rfl⟩, rfl, ⟨hv _, .b_stmt hr rfl⟩, rfl, .b_block .stmts_nil⟩, rfl⟩

/-- **C26** from the source. -/
theorem C26_source (is : List Item) (closed : Bool) (abs : Bool) (ns : List Text) (id : Text) (h : Script is closed)
    (hid : ns = [] → id.map lowerAscii ∉ [c!"true", c!"false", c!"null"])
    (hv : codeToks is = .k .Return :: (qualToks abs ns id ++ [.k .SemiColon])) :
    ScriptMeans is closed [bareS (.ret (some (bare (.path
      ⟨abs, if ns = [] then none else some (List.intercalate ['\\'] ns), id⟩))))] :=
  script_of_tokens h fun m toks hP hx => C26_name m toks abs ns id hP hid (hx.trans hv)

/-- `return \A\B\c;` meets the hypotheses. -/
example :
    let w := fun (x : Text) => [Item.lex (.word x)]
    let is := wd c!"return" ++ (.gap c!" " :: sy c!"\\") ++ w c!"A" ++ sy c!"\\" ++ w c!"B" ++ sy c!"\\" ++ w c!"c" ++ sy c!";"
    scriptText is false = c!"<?php return \\A\\B\\c;" ∧ Script is false ∧
      codeToks is = .k .Return :: (qualToks true [c!"A", c!"B"] c!"c" ++ [.k .SemiColon]) :=
  ⟨rfl, script_check (by decide), rfl⟩

/-- **C32** from the source. -/
theorem C32_source (is js : List Item) (closed closed' : Bool) (xs : List Element) (trailing trailing' : Bool)
    (h : Script is closed) (h' : Script js closed') (hx : ∀ x ∈ xs, x.ok)
    (hv : codeToks is = .k .Return :: .k .Array :: .k .ParenthesesOpen ::
      (elementToks trailing xs ++ [.k .ParenthesesClose, .k .SemiColon]))
    (hv' : codeToks js = .k .Return :: .k .SquareBracketOpen ::
      (elementToks trailing' xs ++ [.k .SquareBracketClose, .k .SemiColon])) :
    ScriptMeans is closed [bareS (.ret (some (bare (.array (xs.map Element.item)))))] ∧
      ScriptMeans js closed' [bareS (.ret (some (bare (.array (xs.map Element.item)))))] := by
  constructor
  · refine script_stmt (o := false) h ?_ (by simp [hv])
    rw [hv]
    have := DerivesX.s_return (.o_some (.e_var (p := 0)
      (.v_array (elements_derive trailing xs hx) (.a_nil false _))))
    simpa using this
  · refine script_stmt (o := false) h' ?_ (by simp [hv'])
    rw [hv']
    have := DerivesX.s_return (.o_some (.e_var (p := 0)
      (.v_bracket (elements_derive trailing' xs hx) (.a_nil false _))))
    simpa using this

/-- `return array($a => $b, $c);` and `return [$a => $b, $c,];` meet the hypotheses. -/
example :
    let xs : List Element := [⟨some (varOperand c!"a"), varOperand c!"b"⟩, ⟨none, varOperand c!"c"⟩]
    let mid := vr c!"a" ++ sy c!"=>" ++ vr c!"b" ++ sy c!"," ++ vr c!"c"
    let is := wd c!"return" ++ wd c!"array" ++ sy c!"(" ++ mid ++ sy c!")" ++ sy c!";"
    let js := wd c!"return" ++ sy c!"[" ++ mid ++ sy c!"," ++ sy c!"]" ++ sy c!";"
    Script is false ∧ Script js false ∧ (∀ x ∈ xs, x.ok) ∧
      codeToks is = .k .Return :: .k .Array :: .k .ParenthesesOpen ::
        (elementToks false xs ++ [.k .ParenthesesClose, .k .SemiColon]) ∧
      codeToks js = .k .Return :: .k .SquareBracketOpen ::
        (elementToks true xs ++ [.k .SquareBracketClose, .k .SemiColon]) := by
  have hv : ∀ n, (varOperand n).isExpr := fun n => ⟨_, .e_var (.v_name n (.a_nil false _))⟩
  refine ⟨script_check (by decide), script_check (by decide), ?_, rfl, rfl⟩
  intro x hx
  simp only [List.mem_cons, List.not_mem_nil, or_false] at hx
  rcases hx with rfl | rfl
  · exact ⟨fun y hy => by cases hy; exact hv _, hv _⟩
  · exact ⟨fun y hy => (by cases hy), hv _⟩

/-- **C33** from the source, classes. -/
theorem C33_class_source (is js : List Item) (closed closed' : Bool) (ms ms' : List ClassModifier) (n : Text)
    {xts its mts : List Token} {base : Option Path} {impls : List Path} {members : List Member}
    (h : Script is closed) (h' : Script js closed') (hsame : ∀ x, x ∈ ms ↔ x ∈ ms') (hx : OptBase xts base)
    (hi : OptNames .Implements its impls) (hm : Derives .members mts members)
    (hv : codeToks is = classModifierToks ms ++ .k .Class :: .string n :: (xts ++ (its ++
        .k .CurlyBracesOpen :: (mts ++ [.k .CurlyBracesClose]))))
    (hv' : codeToks js = classModifierToks ms' ++ .k .Class :: .string n :: (xts ++ (its ++
        .k .CurlyBracesOpen :: (mts ++ [.k .CurlyBracesClose])))) :
    ∃ set : ClassModifiers, (∀ x, set.has x = true ↔ x ∈ ms) ∧
      ScriptMeans is closed [bareS (.decl (.cls set n base impls members))] ∧
      ScriptMeans js closed' [bareS (.decl (.cls set n base impls members))] := by
  refine ⟨ClassModifiers.new ms, C03_class_modifiers ms, ?_, ?_⟩
  · refine script_stmt (o := false) h ?_ (by simp [hv])
    rw [hv]
    exact .s_class ms n hx hi hm
  · refine script_stmt (o := false) h' ?_ (by simp [hv'])
    rw [hv', C03_extensional_class ms ms' hsame]
    exact .s_class ms' n hx hi hm

/-- `final abstract class A { }` and `abstract final final class A { }` meet the hypotheses. -/
example :
    let ms : List ClassModifier := [.Final, .Abstract]
    let ms' : List ClassModifier := [.Abstract, .Final, .Final]
    let is := wd c!"final" ++ wd c!"abstract" ++ wd c!"class" ++ wd c!"A" ++ sy c!"{" ++ sy c!"}"
    let js := wd c!"abstract" ++ wd c!"final" ++ wd c!"final" ++ wd c!"class" ++ wd c!"A" ++ sy c!"{" ++ sy c!"}"
    let rest : List Token := .k .Class :: .string c!"A" :: ([] ++ ([] ++ .k .CurlyBracesOpen :: ([] ++ [.k .CurlyBracesClose])))
    Script is false ∧ Script js true ∧ (∀ x, x ∈ ms ↔ x ∈ ms') ∧ OptBase [] none ∧ OptNames .Implements [] [] ∧
      Derives .members [] [] ∧ codeToks is = classModifierToks ms ++ rest ∧ codeToks js = classModifierToks ms' ++ rest := by
  refine ⟨script_check (by decide), script_check (by decide), ?_, .none, .none, .members_nil, rfl, rfl⟩
  intro x
  cases x <;> decide

/-- **C33** from the source, members. -/
theorem C33_member_source (is js : List Item) (closed closed' : Bool) (ms ms' : List MemberModifier) (n : Text)
    {ts : List Token} {f : MemberModifiers → List Member} (h : Script is closed) (h' : Script js closed')
    (hsame : ∀ x, x ∈ ms ↔ x ∈ ms') (hr : MemberRest ts f)
    (hv : codeToks is = .k .Class :: .string n :: .k .CurlyBracesOpen ::
      (memberModifierToks ms ++ ts ++ [.k .CurlyBracesClose]))
    (hv' : codeToks js = .k .Class :: .string n :: .k .CurlyBracesOpen ::
      (memberModifierToks ms' ++ ts ++ [.k .CurlyBracesClose])) :
    ∃ set : MemberModifiers, (∀ x, set.has x = true ↔ x ∈ ms) ∧
      ScriptMeans is closed [bareS (.decl (.cls ClassModifiers.none n none [] (f set)))] ∧
      ScriptMeans js closed' [bareS (.decl (.cls ClassModifiers.none n none [] (f set)))] := by
  have key : ∀ ms : List MemberModifier, Derives (.stmt false) (.k .Class :: .string n :: .k .CurlyBracesOpen ::
      (memberModifierToks ms ++ ts ++ [.k .CurlyBracesClose]))
      (bareS (.decl (.cls ClassModifiers.none n none [] (f (MemberModifiers.new ms))))) := by
    intro ms
    have := DerivesX.s_class [] n .none .none (.members_cons (memberRest_derives hr ms) .members_nil)
    simpa [classModifierToks, ClassModifiers.new, ClassModifiers.none] using this
  refine ⟨MemberModifiers.new ms, C03_member_modifiers ms, ?_, ?_⟩
  · refine script_stmt (o := false) h ?_ (by simp [hv])
    rw [hv]
    exact key ms
  · refine script_stmt (o := false) h' ?_ (by simp [hv'])
    rw [hv', C03_extensional_member ms ms' hsame]
    exact key ms'

/-- `class A { static public $x; }` and `class A { public static $x; }` meet the hypotheses. -/
example :
    let ms : List MemberModifier := [.Static, .Public]
    let ms' : List MemberModifier := [.Public, .Static]
    let hd := wd c!"class" ++ wd c!"A" ++ sy c!"{"
    let tl := vr c!"x" ++ sy c!";" ++ sy c!"}"
    let is := hd ++ (wd c!"static" ++ wd c!"public") ++ tl
    let js := hd ++ (wd c!"public" ++ wd c!"static") ++ tl
    let ts : List Token := [.variable c!"x"] ++ [.k .SemiColon]
    Script is false ∧ Script js true ∧ (∀ x, x ∈ ms ↔ x ∈ ms') ∧
      MemberRest ts (fun s => [.property s c!"x" none]) ∧
      codeToks is = .k .Class :: .string c!"A" :: .k .CurlyBracesOpen ::
        (memberModifierToks ms ++ ts ++ [.k .CurlyBracesClose]) ∧
      codeToks js = .k .Class :: .string c!"A" :: .k .CurlyBracesOpen ::
        (memberModifierToks ms' ++ ts ++ [.k .CurlyBracesClose]) := by
  refine ⟨script_check (by decide), script_check (by decide), ?_, .property (.vars_one c!"x" .dflt_none), rfl, rfl⟩
  intro x
  cases x <;> decide

/-! ## C07 and C11: what is true of them -/

/-- **C07** (partial): no script of the grammar makes `parse_str` abort. Missing: sources that are no programs, for which
it is false (`C07_sources`), and the constructs `Item` does not describe. -/
theorem C07_programs_partial (is : List Item) (closed : Bool) (ss : List Stmt) (h : Script is closed)
    (hne : codeToks is ≠ []) (hd : Derives .tops (codeToks is) ss) (p : Panic) : ¬ Ends (scriptText is closed) (.panic p) := by
  intro hp
  obtain ⟨ss', -, he⟩ := script_parses is closed ss h hne hd
  cases he.unique hp

/-- The script `$a = 1;` of Props/Source.lean meets the hypotheses. -/
example (p : Panic) : ¬ Ends (scriptText (exampleItems c!" ") false) (.panic p) :=
  C07_programs_partial _ _ _ example_script (by decide) (.tops_cons (.t_stmt (.s_expr (.e_assign (p := 0)
    (.v_name c!"a" (.a_nil _ _)) (.e_int (p := 0) 1)))) .tops_nil) p

/-- One word and a semicolon. -/
private def wordItems (w : Text) : List Item := [.gap c!" ", .lex (.word w), .lex (.sym c!";" .SemiColon)]

private theorem blank_space : Blank c!" " := by intro c hc; simp at hc; exact .inl hc

private theorem wordItems_script {w : Text} (h : isIdentifier w = true) (hy : w ≠ c!"yieldfrom") : Script (wordItems w) false := by
  refine ⟨⟨blank_space, ⟨h, hy⟩, ⟨rfl, fun _ => ⟨fun _ => ?_, fun _ => by decide⟩⟩, (by decide : _ ∈ symbols), ⟨nofun, nofun, nofun⟩, trivial⟩, 0, rfl⟩
  rintro ⟨b, r, hr, hb⟩
  cases b with
  | nil => cases hr
  | cons c b =>
    injection hr with h1 h2
    subst h1
    have := hb ';' (by simp)
    revert this
    decide

/-- **C11** (partial): every reserved word in its lower-case spelling yields its keyword. Missing: the other spellings,
for which it is false (`C11_fails`). -/
theorem C11_lower_partial (w : Text) (k : Kw) (h : (w, k) ∈ reservedWords) :
    ∃ n, tokensOf n (c!"<?php " ++ w ++ c!";") = some [.k .OpenTag, .k k, .k .SemiColon] := by
  have hw : isIdentifier w = true ∧ w ≠ c!"yieldfrom" ∧ identifierToken w = .k k := by
    have : ∀ x ∈ reservedWords, isIdentifier x.1 = true ∧ x.1 ≠ c!"yieldfrom" ∧ identifierToken x.1 = .k x.2 := by
      decide +kernel
    exact this _ h
  obtain ⟨n, ts, h1, h2⟩ := script_tokens (wordItems w) false (wordItems_script hw.1 hw.2.1)
  refine ⟨n, ?_⟩
  have ht : scriptText (wordItems w) false = c!"<?php " ++ w ++ c!";" := by
    simp [scriptText, wordItems, render, Item.text, Lexeme.text]
  rw [ht] at h1
  have h3 : tokensOf n (c!"<?php " ++ w ++ c!";") = some (ts.map TokSpan.tok) := by
    unfold spansOf at h1
    unfold tokensOf
    split at h1
    · rename_i a b hl
      cases h1
      rfl
    · cases h1
  rw [h3, h2]
  simp [wordItems, toks, Lexeme.tok, hw.2.2]

example : ∃ n, tokensOf n c!"<?php insteadof;" = some [.k .OpenTag, .k .Insteadof, .k .SemiColon] :=
  C11_lower_partial c!"insteadof" .Insteadof (by decide)

/-- **C11** (partial): `true`, `false` and `null` are recognised in every spelling. -/
theorem C11_constants_partial (w : Text) (c : Const)
    (h : (w.map lowerAscii, c) ∈ [(c!"true", Const.True), (c!"false", Const.False), (c!"null", Const.Null)]) :
    ∃ ss, Ends (c!"<?php " ++ w ++ c!";") (.ok ss) ∧ eraseStmts ss = [bareS (.expr (bare (.const c)))] := by
  have hch : ∀ c d : Char, lowerAscii c = d → isIdChar d = true → d.isDigit = false → isIdChar c = true ∧ c.isDigit = false := by
    intro c d he h1 h2
    unfold lowerAscii at he
    split at he
    · rename_i hr
      unfold inRange at hr
      simp only [Bool.and_eq_true, decide_eq_true_eq] at hr
      have hu : c.isUpper = true := by
        simp only [Char.isUpper, Bool.and_eq_true, decide_eq_true_eq]
        exact ⟨hr.1, hr.2⟩
      refine ⟨by simp [isIdChar, Char.isAlphanum, Char.isAlpha, hu], ?_⟩
      cases hd : c.isDigit with
      | false => rfl
      | true =>
        simp only [Char.isDigit, Bool.and_eq_true, decide_eq_true_eq] at hd
        exact absurd (Nat.le_trans hr.1 hd.2) (by decide)
    · subst he
      exact ⟨h1, h2⟩
  have hy : w ≠ c!"yieldfrom" := by
    rintro rfl
    cases c <;> revert h <;> decide
  have hid : isIdentifier w = true := by
    have hall : ∀ (v w : Text), w.map lowerAscii = v → v.all (fun c => isIdChar c && !c.isDigit) = true →
        w.all (fun c => isIdChar c && !c.isDigit) = true := by
      intro v w he hv
      subst he
      rw [List.all_map, List.all_eq_true] at hv
      rw [List.all_eq_true]
      intro x hx
      have := hv x hx
      simp only [Function.comp_apply, Bool.and_eq_true, Bool.not_eq_true'] at this
      have := hch x _ rfl this.1 this.2
      simp [this]
    have hw : w.all (fun c => isIdChar c && !c.isDigit) = true := by
      simp only [List.mem_cons, Prod.mk.injEq, List.not_mem_nil, or_false] at h
      rcases h with h | h | h <;> exact hall _ w h.1 (by decide)
    cases w with
    | nil => simp at h
    | cons x xs =>
      rw [List.all_cons, Bool.and_eq_true, List.all_eq_true] at hw
      show (isIdChar x && !x.isDigit && xs.all isIdChar) = true
      rw [hw.1, Bool.true_and, List.all_eq_true]
      intro y hy
      exact (Bool.and_eq_true _ _ ▸ hw.2 y hy).1
  have hres : reservedWords.lookup w = none := by
    cases hl : reservedWords.lookup w with
    | none => rfl
    | some k =>
      exfalso
      have hm := lookup_mem hl
      have : ∀ x ∈ reservedWords, x.1.map lowerAscii ∉ [c!"true", c!"false", c!"null"] := by decide +kernel
      exact this _ hm (by simp at h; rcases h with h | h | h <;> simp [h.1])
  have ht : scriptText (wordItems w) false = c!"<?php " ++ w ++ c!";" := by
    simp [scriptText, wordItems, render, Item.text, Lexeme.text]
  have hc : codeToks (wordItems w) = [.string w, .k .SemiColon] := by
    simp [codeToks, wordItems, toks, Lexeme.tok, identifierToken, hres, isComment]
  have hco : constOf (qualPath false [] w) = .const c := by
    simp at h
    rcases h with ⟨h, rfl⟩ | ⟨h, rfl⟩ | ⟨h, rfl⟩ <;> simp [constOf, qualPath, h]
  have hd := DerivesX.s_expr (lax := false) (DerivesX.e_name (p := 0) (.qual false [] w))
  rw [hco] at hd
  replace hd : Derives (.stmt false) (codeToks (wordItems w)) (bareS (.expr (bare (.const c)))) := by rw [hc]; exact hd
  obtain ⟨ss, h1, h2⟩ := script_stmt (o := false) (wordItems_script hid hy) hd (by simp [hc])
  exact ⟨ss, ht ▸ h2, h1⟩

example : ∃ ss, Ends c!"<?php nULL;" (.ok ss) ∧ eraseStmts ss = [bareS (.expr (bare (.const .Null)))] :=
  C11_constants_partial c!"nULL" .Null (by decide)

end Pico
