import Verif.Lemmas.GramExpr
/-!
# Parameters, functions, lists of names, variables and constants
-/
namespace Pico
open P

variable {toks : List TokSpan}

theorem loops_snoc2 {α β : Type} {step : List α → P (List α ⊕ (List α × β))} {l r : List Token} {es : List α} {b : β}
    (h : ∀ acc, Loops toks step acc l (acc ++ es, b) r) (acc : List α) (x : α) :
    Loops toks step (acc ++ [x]) l (acc ++ x :: es, b) r := by
  have := h (acc ++ [x])
  rw [List.append_assoc] at this
  exact this

/-! ## Lists of names -/

def nameStep (names : List Path) : P (List Path ⊕ List Path) := do
  let (p, _) ← parseName
  if ← eats .Comma then return .inl (names ++ [p]) else return .inr (names ++ [p])

theorem parseNameList_eq : parseNameList = loop nameStep [] := rfl

theorem nameList_loop (hP : Placed toks) {ts : List Token} {ps : List Path} (h : NameList ts ps) (r : List Token)
    (hn : NoKw .NsSeparator r) (hc : NoKw .Comma r) (acc : List Path) :
    Loops toks nameStep acc (ts ++ r) (acc ++ ps) r := by
  induction h generalizing acc with
  | one abs ns id =>
    obtain ⟨sp, hs⟩ := parseName_step hP abs ns id r hn
    refine Loops.done ?_
    unfold nameStep
    stepc hs
    stepc (eats_miss hc)
    exact Step.pure
  | @cons abs ns id ts ps h ih =>
    obtain ⟨sp, hs⟩ := parseName_step hP abs ns id (.k .Comma :: (ts ++ r)) (by nokw)
    norml
    refine Loops.more (s' := acc ++ [qualPath abs ns id]) (l' := ts ++ r) ?_ (by simp; omega) (loops_snoc ih acc _)
    unfold nameStep
    stepc hs
    stepc eats_hit
    exact Step.pure

theorem nameList_step (hP : Placed toks) {ts : List Token} {ps : List Path} (h : NameList ts ps) (r : List Token)
    (hn : NoKw .NsSeparator r) (hc : NoKw .Comma r) : Step toks parseNameList (ts ++ r) ps r := by
  rw [parseNameList_eq]
  exact (nameList_loop hP h r hn hc []).loop

theorem NameList.head {ts : List Token} {ps : List Path} (h : NameList ts ps) :
    ∃ t us, ts = t :: us ∧ (t = .k .NsSeparator ∨ ∃ x, t = .string x) := by
  cases h with
  | one abs ns id => exact qualToks_cons abs ns id
  | cons abs ns id h =>
    obtain ⟨t, us, h1, h2⟩ := qualToks_cons abs ns id
    exact ⟨t, _, by rw [h1]; rfl, h2⟩

/-! ## Default values -/

/-- An optional value after `=`, where an error is final. -/
def optValue (R : Rec) : P (Option Expr) := do
  if ← eats .Equal then
    let e ← R.expr .None
    return some e
  else return none

def DfltOK (toks : List TokSpan) (ts : List Token) (d : Option Expr) : Prop :=
  ∀ r, endsExpr 0 r = true → ∃ d', eraseOpt d' = d ∧ Step toks (parseDefault theRec) (ts ++ r) (.ok d') r ∧
    Step toks (optValue theRec) (ts ++ r) d' r

theorem dflt_none : DfltOK toks [] none := by
  intro r hr
  refine ⟨none, rfl, ?_, ?_⟩
  · unfold parseDefault
    stepc (eats_miss (by nokw))
    exact Step.pure
  · unfold optValue
    stepc (eats_miss (by nokw))
    exact Step.pure

theorem dflt_some {s : Nat} {ts : List Token} {e : Expr} (h : ExprOK toks 0 s ts e) :
    DfltOK toks (.k .Equal :: ts) (some e) := by
  intro r hr
  obtain ⟨e', he, hs⟩ := h.run0 hr
  refine ⟨some e', by simp [eraseOpt, he], ?_, ?_⟩
  · unfold parseDefault
    stepc eats_hit
    stepc hs.attempt
    exact Step.pure
  · unfold optValue
    stepc eats_hit
    stepc hs
    exact Step.pure

/-! ## Parameters -/

def paramStep (R : Rec) (params : List Param) : P (List Param ⊕ (List Param × Option PErr)) := do
  match ← parseTypeHint with
  | .error e => return .inr (params, some e)
  | .ok ty =>
    let isRef ← eats .Ampersand
    let isVariadic ← eats .Ellipsis
    match ← eatVariable with
    | none =>
      let p ← getPos
      return .inr (params, some ⟨[.variable []], p⟩)
    | some (name, _) =>
      match ← parseDefault R with
      | .error e => return .inr (params, some e)
      | .ok d =>
        let params := params ++ [.mk name isRef isVariadic ty d]
        if ← eats .Comma then return .inl params else return .inr (params, none)

theorem parseParameterList_eq (R : Rec) : parseParameterList R = loop (paramStep R) [] := rfl

def ParamsOK (toks : List TokSpan) (ts : List Token) (ps : List Param) : Prop :=
  ∀ r, ∃ ps' err, eraseParams ps' = ps ∧ ∀ acc, Loops toks (paramStep theRec) acc
    (ts ++ .k .ParenthesesClose :: r) (acc ++ ps', err) (.k .ParenthesesClose :: r)

theorem typeHint_step (hP : Placed toks) {ts : List Token} {ty : Option Ty} (h : TypeHint ts ty) (r : List Token)
    (hq : NoKw .QuestionMark r) (ha : NoKw .Array r) (hc : NoKw .Callable r) (hn : NoName r) :
    Step toks parseTypeHint (ts ++ r) (.ok ty) r := by
  unfold parseTypeHint
  cases h with
  | none =>
    norml
    stepc (eats_miss hq)
    stepc (eats_miss ha)
    stepc (eats_miss hc)
    stepc (parseName_fails hn).attempt
    exact Step.pure
  | array =>
    norml
    stepc (eats_miss (by nokw))
    stepc eats_hit
    exact Step.pure
  | callable =>
    norml
    stepc (eats_miss (by nokw))
    stepc (eats_miss (by nokw))
    stepc eats_hit
    exact Step.pure
  | name abs ns id =>
    obtain ⟨sp, hs⟩ := parseName_step hP abs ns id r hn.1
    stepc (eats_miss (noKw_qual (by decide)))
    stepc (eats_miss (noKw_qual (by decide)))
    stepc (eats_miss (noKw_qual (by decide)))
    stepc hs.attempt
    exact Step.pure
  | nullArray =>
    norml
    stepc eats_hit
    stepc eats_hit
    exact Step.pure
  | nullCallable =>
    norml
    stepc eats_hit
    stepc (eats_miss (by nokw))
    stepc eats_hit
    exact Step.pure
  | nullName abs ns id =>
    obtain ⟨sp, hs⟩ := parseName_step hP abs ns id r hn.1
    norml
    stepc eats_hit
    stepc (eats_miss (noKw_qual (by decide)))
    stepc (eats_miss (noKw_qual (by decide)))
    stepc hs.attempt
    exact Step.pure

theorem variadic_step {v : Bool} {ts : List Token} (h : NoKw .Ellipsis ts) :
    Step toks (eats .Ellipsis) (variadicToks v ++ ts) v ts := by
  cases v with
  | true => exact eats_hit
  | false => exact eats_miss h

theorem noKw_refVar {r v : Bool} {n : Text} {l : List Token} {k : Kw} (h1 : k ≠ .Ampersand) (h2 : k ≠ .Ellipsis) :
    NoKw k (refToks r ++ (variadicToks v ++ .variable n :: l)) := by
  cases r <;> cases v <;> simp [NoKw, refToks, variadicToks, Ne.symm h1, Ne.symm h2]

theorem noName_refVar {r v : Bool} {n : Text} {l : List Token} :
    NoName (refToks r ++ (variadicToks v ++ .variable n :: l)) := by
  refine ⟨noKw_refVar (by decide) (by decide), ?_⟩
  cases r <;> cases v <;> simp [refToks, variadicToks]

theorem noAmp_var {v : Bool} {n : Text} {l : List Token} : NoKw .Ampersand (variadicToks v ++ .variable n :: l) := by
  cases v <;> simp [NoKw, variadicToks]

theorem params_nil : ParamsOK toks [] [] := by
  intro r
  refine ⟨[], some ⟨[.variable []], posOf toks (.k .ParenthesesClose :: r)⟩, rfl, fun acc => Loops.done ?_⟩
  norml
  unfold paramStep parseTypeHint
  refine Step.bind (a := .ok none) (l' := .k .ParenthesesClose :: r) ?_ ?_
  · stepc (eats_miss (by nokw))
    stepc (eats_miss (by nokw))
    stepc (eats_miss (by nokw))
    stepc (parseName_fails ⟨by nokw, by simp⟩).attempt
    exact Step.pure
  dsimp only
  stepc (eats_miss (by nokw))
  stepc (eats_miss (by nokw))
  stepc (eatVariable_miss (by simp))
  stepc getPos_step
  exact Step.pure' (by simp)

theorem params_one (hP : Placed toks) {tts : List Token} {ty : Option Ty} (n : Text) (rf v : Bool) {ds : List Token}
    {d : Option Expr} (ht : TypeHint tts ty) (h : DfltOK toks ds d) :
    ParamsOK toks (tts ++ (refToks rf ++ (variadicToks v ++ .variable n :: ds))) [.mk n rf v ty d] := by
  intro r
  obtain ⟨d', hd, hs, -⟩ := h (.k .ParenthesesClose :: r) rfl
  refine ⟨[.mk n rf v ty d'], none, by simp [eraseParams, Param.erase, hd], fun acc => Loops.done ?_⟩
  norml
  unfold paramStep
  stepc (typeHint_step hP ht _ (noKw_refVar (by decide) (by decide)) (noKw_refVar (by decide) (by decide))
    (noKw_refVar (by decide) (by decide)) noName_refVar)
  stepc (ref_step noAmp_var)
  stepc (variadic_step (by nokw))
  stepc eatVariable_hit
  stepc hs
  stepc (eats_miss (by nokw))
  exact Step.pure

theorem params_cons (hP : Placed toks) {tts : List Token} {ty : Option Ty} (n : Text) (rf v : Bool)
    {ds ts : List Token} {d : Option Expr} {ps : List Param} (ht : TypeHint tts ty) (h : DfltOK toks ds d)
    (h' : ParamsOK toks ts ps) :
    ParamsOK toks (tts ++ (refToks rf ++ (variadicToks v ++ .variable n :: (ds ++ .k .Comma :: ts))))
      (.mk n rf v ty d :: ps) := by
  intro r
  obtain ⟨d', hd, hs, -⟩ := h (.k .Comma :: (ts ++ .k .ParenthesesClose :: r)) rfl
  obtain ⟨ps', err, hps, hl⟩ := h' r
  refine ⟨.mk n rf v ty d' :: ps', err, by simp [eraseParams, Param.erase, hd, hps], fun acc => ?_⟩
  norml
  refine Loops.more (s' := acc ++ [.mk n rf v ty d']) (l' := ts ++ .k .ParenthesesClose :: r) ?_ (by simp; omega)
    (loops_snoc2 hl acc _)
  unfold paramStep
  stepc (typeHint_step hP ht _ (noKw_refVar (by decide) (by decide)) (noKw_refVar (by decide) (by decide))
    (noKw_refVar (by decide) (by decide)) noName_refVar)
  stepc (ref_step noAmp_var)
  stepc (variadic_step (by nokw))
  stepc eatVariable_hit
  stepc hs
  stepc eats_hit
  exact Step.pure

/-! ## Captured variables -/

def captureStep (vars : List (Bool × Text)) : P (List (Bool × Text) ⊕ List (Bool × Text)) := do
  let isRef ← eats .Ampersand
  let (v, _) ← expectVariable
  if ← eats .Comma then return .inl (vars ++ [(isRef, v)])
  else return .inr (vars ++ [(isRef, v)])

theorem parseUseVars_eq : parseUseVars = (do
    if ← eats .Use then
      let _ ← expect .ParenthesesOpen
      let vars ← loop captureStep []
      let _ ← expect .ParenthesesClose
      return vars
    else return []) := rfl

theorem captures_loop {ts : List Token} {vs : List (Bool × Text)} (h : Captures ts vs) (r : List Token)
    (hc : NoKw .Comma r) (acc : List (Bool × Text)) : Loops toks captureStep acc (ts ++ r) (acc ++ vs) r := by
  induction h generalizing acc with
  | one rf v =>
    refine Loops.done ?_
    norml
    unfold captureStep
    stepc (ref_step (by nokw))
    stepc expectVariable_hit
    stepc (eats_miss hc)
    exact Step.pure
  | @cons rf v ts vs h ih =>
    norml
    refine Loops.more (s' := acc ++ [(rf, v)]) (l' := ts ++ r) ?_ (by simp; omega) (loops_snoc ih acc _)
    unfold captureStep
    stepc (ref_step (by nokw))
    stepc expectVariable_hit
    stepc eats_hit
    exact Step.pure

theorem useClauses_step {c : Bool} {ts : List Token} {vs : List (Bool × Text)} (h : UseClauses c ts vs)
    (r : List Token) (hr : NoKw .Use r) :
    Step toks (if c then parseUseVars else return []) (ts ++ r) vs r := by
  cases h with
  | none c =>
    cases c with
    | false => exact Step.pure
    | true =>
      rw [if_pos rfl, parseUseVars_eq]
      stepc (eats_miss hr)
      exact Step.pure
  | some h =>
    rw [if_pos rfl, parseUseVars_eq]
    norml
    stepc eats_hit
    stepc expect_hit
    stepc (captures_loop h _ (by nokw) []).loop
    stepc expect_hit
    exact Step.pure

/-! ## Functions -/

/-- Tokens that start a statement. -/
def stmtHead (t : Token) : Bool :=
  exprHead t ||
  (match t with
  | .k k => [Kw.SemiColon, .CurlyBracesOpen, .Try, .Unset, .Foreach, .For, .Switch, .If, .While, .Do, .Static,
      .Global, .Function, .Trait, .Interface, .Abstract, .Final, .Class, .Echo, .Return, .Continue, .Break,
      .Throw].contains k
  | .inlineHtml _ => true
  | _ => false)

def innerStep (R : Rec) (last : Nat) (stmts : List Stmt) : P (List Stmt ⊕ (List Stmt × Option PErr)) := do
  let p ← getPos
  if p ≤ last then
    match ← attempt R.stmt with
    | .ok s => return .inl (stmts ++ [s])
    | .error e => return .inr (stmts, some e)
  else return .inr (stmts, none)

theorem parseInnerStatementList_eq (R : Rec) : parseInnerStatementList R = (do
    let n ← tokCount
    let last ← subP n 1
    loop (innerStep R last) []) := rfl

/-- What ends a list of statements. -/
def endsBlock (r : List Token) : Prop :=
  ∃ k r', r = .k k :: r' ∧ (k = .CurlyBracesClose ∨ k = .Case ∨ k = .Default)

def StmtsOK (toks : List TokSpan) (ts : List Token) (b : List Stmt) : Prop :=
  (ts = [] ∨ StartsWith stmtHead ts) ∧
  ∀ r, endsBlock r → ∃ b' err, eraseStmts b' = b ∧ ∀ acc,
    Loops toks (innerStep theRec (toks.length - 1)) acc (ts ++ r) (acc ++ b', err) r

theorem StmtsOK.run {ts : List Token} {b : List Stmt} (h : StmtsOK toks ts b) {r : List Token} (hr : endsBlock r) :
    ∃ b' err, eraseStmts b' = b ∧ Step toks (parseInnerStatementList theRec) (ts ++ r) (b', err) r := by
  obtain ⟨b', err, hb, hl⟩ := h.2 r hr
  refine ⟨b', err, hb, Step.with fun ht => ?_⟩
  have : 1 ≤ toks.length := by
    have := ht.len
    obtain ⟨k, r', rfl, -⟩ := hr
    simp at this
    omega
  rw [parseInnerStatementList_eq]
  stepc tokCount_step
  stepc (subP_step this)
  exact (hl []).loop

theorem StmtsOK.braced {ts : List Token} {b : List Stmt} (h : StmtsOK toks ts b) (r : List Token) :
    ∃ b', eraseStmts b' = b ∧
      Step toks (parseBraced theRec) (.k .CurlyBracesOpen :: (ts ++ .k .CurlyBracesClose :: r)) b' r := by
  obtain ⟨b', err, hb, hs⟩ := h.run (r := .k .CurlyBracesClose :: r) ⟨_, _, rfl, .inl rfl⟩
  refine ⟨b', hb, ?_⟩
  unfold parseBraced
  stepc expect_hit
  stepc hs
  stepc expectOr_hit
  exact Step.pure

theorem fn_body {c a rf : Bool} {ts us bs : List Token} {ps : List Param} {vs : List (Bool × Text)} {b : List Stmt}
    (h : ParamsOK toks ts ps) (hu : UseClauses c us vs) (h' : StmtsOK toks bs b) :
    FnOK toks c a rf (.k .ParenthesesOpen :: (ts ++ .k .ParenthesesClose ::
      (us ++ .k .CurlyBracesOpen :: (bs ++ [.k .CurlyBracesClose])))) (.mk ps (some b) vs rf) := by
  refine ⟨⟨_, rfl⟩, fun r => ?_⟩
  obtain ⟨ps', err, hps, hl⟩ := h (us ++ .k .CurlyBracesOpen :: (bs ++ .k .CurlyBracesClose :: r))
  obtain ⟨b', hb, hbs⟩ := h'.braced r
  refine ⟨.mk ps' (some b') vs rf, (spanBefore toks r).stop, by simp [FnDecl.erase, eraseBody, hps, hb], ?_⟩
  norml
  refine Step.with fun htl => ?_
  unfold parseFunctionTail
  stepc expect_hit
  rw [parseParameterList_eq]
  stepc (hl []).loop
  stepc eat_hit
  stepc (useClauses_step hu _ (by nokw))
  refine Step.bind (a := false) (l' := .k .CurlyBracesOpen :: (bs ++ .k .CurlyBracesClose :: r)) ?_ ?_
  · cases a with
    | true => exact eats_miss (by nokw)
    | false => exact Step.pure
  refine Step.bind (a := some b') (l' := r) ?_ ?_
  · try dsimp only [Bool.false_eq_true, ↓reduceIte]
    exact Step.bind hbs Step.pure
  stepc (lastEnd_step htl (by simp; omega))
  exact Step.pure

theorem fn_abstract {rf : Bool} {ts : List Token} {ps : List Param} (h : ParamsOK toks ts ps) :
    FnOK toks false true rf (.k .ParenthesesOpen :: (ts ++ [.k .ParenthesesClose, .k .SemiColon]))
      (.mk ps none [] rf) := by
  refine ⟨⟨_, rfl⟩, fun r => ?_⟩
  obtain ⟨ps', err, hps, hl⟩ := h (.k .SemiColon :: r)
  refine ⟨.mk ps' none [] rf, (spanBefore toks r).stop, by simp [FnDecl.erase, eraseBody, hps], ?_⟩
  norml
  refine Step.with fun htl => ?_
  unfold parseFunctionTail
  stepc expect_hit
  rw [parseParameterList_eq]
  stepc (hl []).loop
  stepc eat_hit
  stepc Step.pure
  refine Step.bind (a := true) (l' := r) eats_hit ?_
  refine Step.bind (a := none) (l' := r) Step.pure ?_
  stepc (lastEnd_step htl (by simp; omega))
  exact Step.pure

theorem functionNamed_step {a rf : Bool} {ts : List Token} {f : FnDecl} (n : Text) (h : FnOK toks false a rf ts f)
    (r : List Token) (start : Span) :
    ∃ f' sp, FnDecl.erase f' = f ∧
      Step toks (parseFunctionNamed theRec start a) (refToks rf ++ .string n :: (ts ++ r)) (n, f', sp) r := by
  obtain ⟨f', stop, hf, hs⟩ := h.2 r
  refine ⟨f', mkSpan start.start stop, hf, ?_⟩
  unfold parseFunctionNamed
  stepc (ref_step (by nokw))
  stepc expectString_hit
  stepc hs
  exact Step.pure

/-! ## Lists of variables and constants -/

def staticStep (R : Rec) (vars : List (Text × Option Expr)) :
    P (List (Text × Option Expr) ⊕ List (Text × Option Expr)) := do
  let (v, _) ← expectVariable
  let value : Option Expr ← optValue R
  if ← eats .Comma then return .inl (vars ++ [(v, value)])
  else return .inr (vars ++ [(v, value)])

theorem parseStaticVarDecl_eq (R : Rec) (start : Span) : parseStaticVarDecl R start = (do
    let vars ← loop (staticStep R) []
    let _ ← expect .SemiColon
    let stop ← lastEnd
    return .mk (.decl (.staticVars vars)) (mkSpan start.start stop)) := rfl

def propStep (R : Rec) (ms : MemberModifiers) (members : List Member) : P (List Member ⊕ List Member) := do
  let (v, _) ← expectVariable
  let d : Option Expr ← optValue R
  let members := members ++ [.property ms v d]
  if ← eats .Comma then return .inl members else return .inr members

theorem parseProperties_eq (R : Rec) (ms : MemberModifiers) : parseProperties R ms = loop (propStep R ms) [] := rfl

def VarsOK (toks : List TokSpan) (ts : List Token) (vs : List (Text × Option Expr)) : Prop :=
  (∃ n us, ts = .variable n :: us) ∧
  ∀ r, ∃ vs', eraseStaticVars vs' = vs ∧
    (∀ acc, Loops toks (staticStep theRec) acc (ts ++ .k .SemiColon :: r) (acc ++ vs') (.k .SemiColon :: r)) ∧
    (∀ ms acc, Loops toks (propStep theRec ms) acc (ts ++ .k .SemiColon :: r)
      (acc ++ vs'.map fun v => .property ms v.1 v.2) (.k .SemiColon :: r))

theorem vars_one (n : Text) {ds : List Token} {d : Option Expr} (h : DfltOK toks ds d) :
    VarsOK toks (.variable n :: ds) [(n, d)] := by
  refine ⟨⟨_, _, rfl⟩, fun r => ?_⟩
  obtain ⟨d', hd, -, hs⟩ := h (.k .SemiColon :: r) rfl
  refine ⟨[(n, d')], by simp [eraseStaticVars, hd], fun acc => Loops.done ?_, fun ms acc => Loops.done ?_⟩
  · norml
    unfold staticStep
    stepc expectVariable_hit
    stepc hs
    stepc (eats_miss (by nokw))
    exact Step.pure
  · norml
    unfold propStep
    stepc expectVariable_hit
    stepc hs
    stepc (eats_miss (by nokw))
    exact Step.pure

theorem vars_cons (n : Text) {ds ts : List Token} {d : Option Expr} {vs : List (Text × Option Expr)}
    (h : DfltOK toks ds d) (h' : VarsOK toks ts vs) :
    VarsOK toks (.variable n :: (ds ++ .k .Comma :: ts)) ((n, d) :: vs) := by
  refine ⟨⟨_, _, rfl⟩, fun r => ?_⟩
  obtain ⟨d', hd, -, hs⟩ := h (.k .Comma :: (ts ++ .k .SemiColon :: r)) rfl
  obtain ⟨vs', hv, hl1, hl2⟩ := h'.2 r
  refine ⟨(n, d') :: vs', by simp [eraseStaticVars, hd, hv], fun acc => ?_, fun ms acc => ?_⟩
  · norml
    refine Loops.more (s' := acc ++ [(n, d')]) (l' := ts ++ .k .SemiColon :: r) ?_ (by simp; omega)
      (loops_snoc hl1 acc _)
    unfold staticStep
    stepc expectVariable_hit
    stepc hs
    stepc eats_hit
    exact Step.pure
  · norml
    refine Loops.more (s' := acc ++ [.property ms n d']) (l' := ts ++ .k .SemiColon :: r) ?_ (by simp; omega)
      (loops_snoc (hl2 ms) acc _)
    unfold propStep
    stepc expectVariable_hit
    stepc hs
    stepc eats_hit
    exact Step.pure

def constStep (R : Rec) (ms : MemberModifiers) (members : List Member) : P (List Member ⊕ List Member) := do
  let (id, _) ← parseIdentifier
  let _ ← expect .Equal
  let v ← R.expr .None
  let members := members ++ [.constant ms id v]
  if ← eats .Comma then return .inl members else return .inr members

theorem parseClassConsts_eq (R : Rec) (ms : MemberModifiers) : parseClassConsts R ms = loop (constStep R ms) [] := rfl

def ConstsOK (toks : List TokSpan) (ts : List Token) (cs : List (Text × Expr)) : Prop :=
  ∀ r, ∃ cs' : List (Text × Expr), (cs'.map fun c => (c.1, c.2.erase)) = cs ∧
    (∀ ms acc, Loops toks (constStep theRec ms) acc (ts ++ .k .SemiColon :: r)
      (acc ++ cs'.map fun c => .constant ms c.1 c.2) (.k .SemiColon :: r))

theorem consts_one {t : Token} {n : Text} {s : Nat} {ts : List Token} {e : Expr} (hn : Ident t n)
    (h : ExprOK toks 0 s ts e) : ConstsOK toks (t :: .k .Equal :: ts) [(n, e)] := by
  intro r
  obtain ⟨e', he, hs⟩ := h.run0 (r := .k .SemiColon :: r) rfl
  refine ⟨[(n, e')], by simp [he], fun ms acc => Loops.done ?_⟩
  norml
  unfold constStep
  stepc (parseIdentifier_step hn _)
  stepc expect_hit
  stepc hs
  stepc (eats_miss (by nokw))
  exact Step.pure

theorem consts_cons {t : Token} {n : Text} {s : Nat} {ts us : List Token} {e : Expr} {cs : List (Text × Expr)}
    (hn : Ident t n) (h : ExprOK toks 0 s ts e) (h' : ConstsOK toks us cs) :
    ConstsOK toks (t :: .k .Equal :: (ts ++ .k .Comma :: us)) ((n, e) :: cs) := by
  intro r
  obtain ⟨e', he, hs⟩ := h.run0 (r := .k .Comma :: (us ++ .k .SemiColon :: r)) rfl
  obtain ⟨cs', hcs, hl⟩ := h' r
  refine ⟨(n, e') :: cs', by simp [he, hcs], fun ms acc => ?_⟩
  norml
  refine Loops.more (s' := acc ++ [.constant ms n e']) (l' := us ++ .k .SemiColon :: r) ?_ (by simp; omega)
    (loops_snoc (hl ms) acc _)
  unfold constStep
  stepc (parseIdentifier_step hn _)
  stepc expect_hit
  stepc hs
  stepc eats_hit
  exact Step.pure

end Pico
