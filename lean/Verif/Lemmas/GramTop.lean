import Verif.Lemmas.GramStmt
/-!
# Members, classes and the top level
-/
namespace Pico
open P

variable {toks : List TokSpan}

/-! ## Modifiers -/

def memberModStep (ms : List MemberModifier) : P (List MemberModifier ⊕ List MemberModifier) := do
  if ← eats .Public then return .inl (ms ++ [.Public])
  else if ← eats .Protected then return .inl (ms ++ [.Protected])
  else if ← eats .Private then return .inl (ms ++ [.Private])
  else if ← eats .Static then return .inl (ms ++ [.Static])
  else if ← eats .Abstract then return .inl (ms ++ [.Abstract])
  else if ← eats .Final then return .inl (ms ++ [.Final])
  else return .inr ms

theorem parseMemberModifiers_eq : parseMemberModifiers = loop memberModStep [] := rfl

theorem memberMods_loop (ms : List MemberModifier) (r : List Token) (hr : ∀ m, NoKw (modifierKw m) r)
    (acc : List MemberModifier) : Loops toks memberModStep acc (memberModifierToks ms ++ r) (acc ++ ms) r := by
  induction ms generalizing acc with
  | nil =>
    refine Loops.done ?_
    unfold memberModStep
    have hk : ∀ m, NoKw (modifierKw m) (memberModifierToks [] ++ r) := hr
    stepc (eats_miss (hk .Public))
    stepc (eats_miss (hk .Protected))
    stepc (eats_miss (hk .Private))
    stepc (eats_miss (hk .Static))
    stepc (eats_miss (hk .Abstract))
    stepc (eats_miss (hk .Final))
    exact Step.pure' (by simp)
  | cons m ms ih =>
    refine Loops.more (s' := acc ++ [m]) (l' := memberModifierToks ms ++ r) ?_ (by simp [memberModifierToks])
      (loops_snoc ih acc _)
    show Step toks _ (.k (modifierKw m) :: (memberModifierToks ms ++ r)) _ _
    unfold memberModStep
    cases m <;> dsimp only [modifierKw]
    · stepc eats_hit
      exact Step.pure
    · stepc (eats_miss (by nokw))
      stepc eats_hit
      exact Step.pure
    · stepc (eats_miss (by nokw))
      stepc (eats_miss (by nokw))
      stepc eats_hit
      exact Step.pure
    · stepc (eats_miss (by nokw))
      stepc (eats_miss (by nokw))
      stepc (eats_miss (by nokw))
      stepc eats_hit
      exact Step.pure
    · stepc (eats_miss (by nokw))
      stepc (eats_miss (by nokw))
      stepc (eats_miss (by nokw))
      stepc (eats_miss (by nokw))
      stepc eats_hit
      exact Step.pure
    · stepc (eats_miss (by nokw))
      stepc (eats_miss (by nokw))
      stepc (eats_miss (by nokw))
      stepc (eats_miss (by nokw))
      stepc (eats_miss (by nokw))
      stepc eats_hit
      exact Step.pure

theorem memberModifiers_step (ms : List MemberModifier) (r : List Token) (hr : ∀ m, NoKw (modifierKw m) r) :
    Step toks parseMemberModifiers (memberModifierToks ms ++ r) ms r := by
  rw [parseMemberModifiers_eq]
  exact (memberMods_loop ms r hr []).loop

def classModStep (ms : List ClassModifier) : P (List ClassModifier ⊕ List ClassModifier) := do
  if ← eats .Abstract then return .inl (ms ++ [.Abstract])
  else if ← eats .Final then return .inl (ms ++ [.Final])
  else return .inr ms

theorem parseClassModifiers_eq : parseClassModifiers = loop classModStep [] := rfl

theorem classMods_loop (ms : List ClassModifier) (r : List Token) (h1 : NoKw .Abstract r) (h2 : NoKw .Final r)
    (acc : List ClassModifier) : Loops toks classModStep acc (classModifierToks ms ++ r) (acc ++ ms) r := by
  induction ms generalizing acc with
  | nil =>
    refine Loops.done ?_
    unfold classModStep
    stepc (eats_miss (l := classModifierToks [] ++ r) h1)
    stepc (eats_miss (l := classModifierToks [] ++ r) h2)
    exact Step.pure' (by simp)
  | cons m ms ih =>
    refine Loops.more (s' := acc ++ [m]) (l' := classModifierToks ms ++ r) ?_ (by simp [classModifierToks])
      (loops_snoc ih acc _)
    show Step toks _ (.k (classModifierKw m) :: (classModifierToks ms ++ r)) _ _
    unfold classModStep
    cases m <;> dsimp only [classModifierKw]
    · stepc eats_hit
      exact Step.pure
    · stepc (eats_miss (by nokw))
      stepc eats_hit
      exact Step.pure

theorem classModifiers_step (ms : List ClassModifier) (r : List Token) (h1 : NoKw .Abstract r) (h2 : NoKw .Final r) :
    Step toks parseClassModifiers (classModifierToks ms ++ r) ms r := by
  rw [parseClassModifiers_eq]
  exact (classMods_loop ms r h1 h2 []).loop

/-! ## Members -/

def MemberOK (toks : List TokSpan) (ts : List Token) (ms : List Member) : Prop :=
  ts ≠ [] ∧ ∀ r, ∃ ms', eraseMembers ms' = ms ∧ Step toks (parseClassStatement theRec) (ts ++ r) ms' r

theorem noVarKw {ms : List MemberModifier} {l : List Token} (h : NoKw .Var l) :
    NoKw .Var (memberModifierToks ms ++ l) := by
  cases ms with
  | nil => exact h
  | cons m ms => cases m <;> simp [NoKw, memberModifierToks, modifierKw]

theorem eraseMembers_props (mo : MemberModifiers) (vs : List (Text × Option Expr)) :
    eraseMembers (vs.map fun v => .property mo v.1 v.2) =
      (eraseStaticVars vs).map fun v => .property mo v.1 v.2 := by
  induction vs with
  | nil => rfl
  | cons v vs ih => simp [eraseMembers, eraseStaticVars, Member.erase, ih]

theorem eraseMembers_consts (mo : MemberModifiers) (cs : List (Text × Expr)) :
    eraseMembers (cs.map fun c => .constant mo c.1 c.2) =
      (cs.map fun c => (c.1, c.2.erase)).map fun c => .constant mo c.1 c.2 := by
  induction cs with
  | nil => rfl
  | cons v vs ih => simp only [List.map_cons, eraseMembers, Member.erase, ih]

theorem noMod_var {n : Text} {l : List Token} (m : MemberModifier) : NoKw (modifierKw m) (.variable n :: l) := by
  simp [NoKw]

theorem noMod_kw {k : Kw} {l : List Token} (h : ∀ m, modifierKw m ≠ k) (m : MemberModifier) :
    NoKw (modifierKw m) (.k k :: l) := by
  simp [NoKw, Ne.symm (h m)]

theorem m_var {ts : List Token} {vs : List (Text × Option Expr)} (h : VarsOK toks ts vs) :
    MemberOK toks (.k .Var :: (ts ++ [.k .SemiColon]))
      (vs.map fun v => .property (MemberModifiers.new [.Public]) v.1 v.2) := by
  refine ⟨by simp, fun r => ?_⟩
  obtain ⟨vs', hv, -, hl⟩ := h.2 r
  refine ⟨vs'.map fun v => .property (MemberModifiers.new [.Public]) v.1 v.2, by rw [eraseMembers_props, hv], ?_⟩
  norml
  unfold parseClassStatement
  stepc eats_hit
  rw [parseProperties_eq]
  stepc (hl _ []).loop
  stepc expect_hit
  exact Step.pure

theorem m_property (ms : List MemberModifier) {ts : List Token} {vs : List (Text × Option Expr)}
    (h : VarsOK toks ts vs) :
    MemberOK toks (memberModifierToks ms ++ (ts ++ [.k .SemiColon]))
      (vs.map fun v => .property (MemberModifiers.new ms) v.1 v.2) := by
  refine ⟨by simp, fun r => ?_⟩
  obtain ⟨vs', hv, -, hl⟩ := h.2 r
  obtain ⟨n, us, hn⟩ := h.1
  refine ⟨vs'.map fun v => .property (MemberModifiers.new ms) v.1 v.2, by rw [eraseMembers_props, hv], ?_⟩
  have hl' := hl (MemberModifiers.new ms) []
  subst hn
  norml
  simp only [List.append_assoc, List.cons_append, List.nil_append] at hl'
  unfold parseClassStatement
  stepc (eats_miss (noVarKw (by nokw)))
  stepc (memberModifiers_step ms _ noMod_var)
  stepc (eats_miss (by nokw))
  stepc (eat_miss (by nokw))
  refine Step.bind (a := vs'.map fun v => .property (MemberModifiers.new ms) v.1 v.2) (l' := .k .SemiColon :: r) ?_ ?_
  · stepc (eats_miss (by nokw))
    rw [parseProperties_eq]
    exact hl'.loop
  stepc expect_hit
  exact Step.pure

theorem m_const (ms : List MemberModifier) {ts : List Token} {cs : List (Text × Expr)} (h : ConstsOK toks ts cs) :
    MemberOK toks (memberModifierToks ms ++ .k .Const :: (ts ++ [.k .SemiColon]))
      (cs.map fun c => .constant (MemberModifiers.new ms) c.1 c.2) := by
  refine ⟨by simp, fun r => ?_⟩
  obtain ⟨cs', hc, hl⟩ := h r
  refine ⟨cs'.map fun c => .constant (MemberModifiers.new ms) c.1 c.2, by rw [eraseMembers_consts, hc], ?_⟩
  norml
  unfold parseClassStatement
  stepc (eats_miss (noVarKw (by nokw)))
  stepc (memberModifiers_step ms _ (noMod_kw (by intro m; cases m <;> decide)))
  stepc (eats_miss (by nokw))
  stepc (eat_miss (by nokw))
  refine Step.bind (a := cs'.map fun c => .constant (MemberModifiers.new ms) c.1 c.2) (l' := .k .SemiColon :: r) ?_ ?_
  · stepc eats_hit
    rw [parseClassConsts_eq]
    exact (hl _ []).loop
  stepc expect_hit
  exact Step.pure

theorem m_method (ms : List MemberModifier) (rf : Bool) (n : Text) {ts : List Token} {f : FnDecl}
    (h : FnOK toks false true rf ts f) :
    MemberOK toks (memberModifierToks ms ++ .k .Function :: (refToks rf ++ .string n :: ts))
      [.method (MemberModifiers.new ms) n f] := by
  refine ⟨by simp, fun r => ?_⟩
  obtain ⟨f', sp, hf, hs⟩ := functionNamed_step n h r (spanBefore toks (refToks rf ++ .string n :: (ts ++ r)))
  refine ⟨[.method (MemberModifiers.new ms) n f'], by simp [eraseMembers, Member.erase, hf], ?_⟩
  norml
  unfold parseClassStatement
  stepc (eats_miss (noVarKw (by nokw)))
  stepc (memberModifiers_step ms _ (noMod_kw (by intro m; cases m <;> decide)))
  stepc (eats_miss (by nokw))
  stepc eat_hit
  stepc hs
  exact Step.pure

theorem use_prefix {l r : List Token} {ms : List Member} (h : Step toks parseTraitUse l ms r) :
    Step toks (parseClassStatement theRec) (.k .Use :: l) ms r := by
  unfold parseClassStatement
  stepc (eats_miss (by nokw))
  stepc (memberModifiers_step [] (.k .Use :: l) (noMod_kw (by intro m; cases m <;> decide)))
  stepc eats_hit
  exact h

theorem m_use (hP : Placed toks) {ts : List Token} {ps : List Path} (h : NameList ts ps) :
    MemberOK toks (.k .Use :: (ts ++ [.k .SemiColon])) [.traitUse ps []] := by
  refine ⟨by simp, fun r => ⟨[.traitUse ps []], rfl, ?_⟩⟩
  norml
  refine use_prefix ?_
  unfold parseTraitUse
  stepc (nameList_step hP h _ (by nokw) (by nokw))
  stepc eats_hit
  exact Step.pure

theorem ident_noName {t : Token} {m : Text} (h : Ident t m) :
    (∃ s, t = .string s) ∨ ∀ l, NoName (t :: l) := by
  cases h with
  | word s => exact .inl ⟨_, rfl⟩
  | reserved k s h =>
    refine .inr fun l => ⟨?_, by simp⟩
    intro he
    simp at he
    subst he
    cases (memberWords_ok _ h).1

theorem absRef_step (hP : Placed toks) (abs : Bool) (ns : List Text) (id : Text) {t : Token} {m : Text}
    (hm : Ident t m) (r : List Token) :
    Step toks parseTraitMethod (qualToks abs ns id ++ .k .ScopeOp :: t :: r) (some (some (qualPath abs ns id), m)) r := by
  obtain ⟨sp, hs⟩ := parseName_step hP abs ns id (.k .ScopeOp :: t :: r) (by nokw)
  unfold parseTraitMethod
  stepc getPos_step
  refine Step.bind (a := .ok (qualPath abs ns id, m)) (l' := r) (Step.attempt ?_) ?_
  · unfold parseAbsoluteTraitMethodReference
    stepc hs
    stepc expect_hit
    stepc (parseIdentifier_step hm r)
    exact Step.pure
  exact Step.pure

theorem absRef_fails (hP : Placed toks) {t : Token} {m : Text} (hm : Ident t m) (l : List Token) :
    ∃ r, Fails toks parseAbsoluteTraitMethodReference (t :: .k .As :: l) r := by
  rcases ident_noName hm with ⟨s, rfl⟩ | hn
  · obtain ⟨sp, hs⟩ := parseName_step hP false [] s (.k .As :: l) (by nokw)
    refine ⟨.k .As :: l, ?_⟩
    unfold parseAbsoluteTraitMethodReference
    have hs' : Step toks parseName (.string s :: .k .As :: l) (qualPath false [] s, sp) (.k .As :: l) := hs
    failc hs'
    exact Fails.bind_left (expect_miss (by nokw))
  · exact ⟨_, Fails.bind_left (parseName_fails (hn _))⟩

theorem simpleRef_step (hP : Placed toks) {t : Token} {m : Text} (hm : Ident t m) (l : List Token) :
    Step toks parseTraitMethod (t :: .k .As :: l) (some (none, m)) (.k .As :: l) := by
  obtain ⟨r, hf⟩ := absRef_fails hP hm l
  refine Step.with fun ht => ?_
  unfold parseTraitMethod
  stepc getPos_step
  stepc hf.attempt
  stepc (rewind_step ht)
  stepc (parseIdentifier_step hm _).attempt
  exact Step.pure

theorem noRef_step (l : List Token) :
    Step toks parseTraitMethod (.k .CurlyBracesClose :: l) none (.k .CurlyBracesClose :: l) := by
  refine Step.with fun ht => ?_
  unfold parseTraitMethod
  stepc getPos_step
  have hf : Fails toks parseAbsoluteTraitMethodReference (.k .CurlyBracesClose :: l) (.k .CurlyBracesClose :: l) :=
    Fails.bind_left (parseName_fails ⟨by nokw, by simp⟩)
  stepc hf.attempt
  stepc (rewind_step ht)
  have hi : Fails toks parseIdentifier (.k .CurlyBracesClose :: l) (.k .CurlyBracesClose :: l) := by
    unfold parseIdentifier
    failc peek_step
    rw [if_neg (by decide)]
    exact Fails.errHere
  stepc hi.attempt
  exact Step.pure

/-- The separator in front of every rule but the first. -/
def ruleSep (first : Bool) : List Token := if first then [] else [.k .SemiColon]

theorem ruleSep_step {α : Type} {f : P α} {first : Bool} {l r : List Token} {a : α} (h : Step toks f l a r) :
    Step toks (do
      if !first then
        let _ ← expect .SemiColon
      f) (ruleSep first ++ l) a r := by
  cases first with
  | true => exact h
  | false => exact Step.bind expect_hit h

theorem rules_loop (hP : Placed toks) {ts : List Token} {us : List TraitUse} (h : TraitRules ts us) (r : List Token)
    (first : Bool) (acc : List TraitUse) :
    Loops toks traitAdaptStep (first, acc) (ruleSep first ++ (ts ++ .k .CurlyBracesClose :: r)) (acc ++ us)
      (.k .CurlyBracesClose :: r) := by
  induction h generalizing first acc with
  | nil =>
    refine Loops.done ?_
    norml
    unfold traitAdaptStep
    refine ruleSep_step ?_
    stepc (noRef_step r)
    exact Step.pure' (by simp)
  | @insteadOf abs ns id t m hm nts names hn ts us h ih =>
    norml
    refine Loops.more (s' := (false, acc ++ [.insteadOf (qualPath abs ns id) m names]))
      (l' := .k .SemiColon :: (ts ++ .k .CurlyBracesClose :: r)) ?_ (by simp; omega) ?_
    · unfold traitAdaptStep
      refine ruleSep_step ?_
      stepc (absRef_step hP abs ns id hm _)
      refine Step.bind (a := some names) (l' := .k .SemiColon :: (ts ++ .k .CurlyBracesClose :: r)) ?_ ?_
      · stepc eats_hit
        stepc (nameList_step hP hn _ (by nokw) (by nokw))
        exact Step.pure
      exact Step.pure
    · have := ih false (acc ++ [.insteadOf (qualPath abs ns id) m names])
      rw [List.append_assoc] at this
      exact this
  | @asQual abs ns id t m hm a ts us h ih =>
    norml
    refine Loops.more (s' := (false, acc ++ [.asAlias (some (qualPath abs ns id)) m MemberModifiers.none (some a)]))
      (l' := .k .SemiColon :: (ts ++ .k .CurlyBracesClose :: r)) ?_ (by simp; omega) ?_
    · unfold traitAdaptStep
      refine ruleSep_step ?_
      stepc (absRef_step hP abs ns id hm _)
      refine Step.bind (a := none) (l' := .k .As :: .string a :: .k .SemiColon :: (ts ++ .k .CurlyBracesClose :: r))
        ?_ ?_
      · stepc (eats_miss (by nokw))
        exact Step.pure
      dsimp only
      stepc eats_hit
      stepc eatString_hit
      exact Step.pure
    · have := ih false (acc ++ [.asAlias (some (qualPath abs ns id)) m MemberModifiers.none (some a)])
      rw [List.append_assoc] at this
      exact this
  | @asSimple t m hm a ts us h ih =>
    norml
    refine Loops.more (s' := (false, acc ++ [.asAlias none m MemberModifiers.none (some a)]))
      (l' := .k .SemiColon :: (ts ++ .k .CurlyBracesClose :: r)) ?_ (by simp; omega) ?_
    · unfold traitAdaptStep
      refine ruleSep_step ?_
      stepc (simpleRef_step hP hm _)
      stepc Step.pure
      stepc eats_hit
      stepc eatString_hit
      exact Step.pure
    · have := ih false (acc ++ [.asAlias none m MemberModifiers.none (some a)])
      rw [List.append_assoc] at this
      exact this

theorem rules_noBrace {ts : List Token} {us : List TraitUse} (h : TraitRules ts us) (hn : ts ≠ []) (r : List Token) :
    NoKw .CurlyBracesClose (ts ++ r) := by
  cases h with
  | nil => exact absurd rfl hn
  | insteadOf => simp only [List.append_assoc]; exact noKw_qual (by decide)
  | asQual => simp only [List.append_assoc]; exact noKw_qual (by decide)
  | asSimple hm =>
    cases hm with
    | word => simp [NoKw]
    | reserved k s h =>
      intro he
      simp at he
      subst he
      cases (memberWords_ok _ h).1

theorem m_useRules (hP : Placed toks) {ts us : List Token} {ps : List Path} {rules : List TraitUse}
    (h : NameList ts ps) (hr : TraitRules us rules) (hn : us ≠ []) :
    MemberOK toks (.k .Use :: (ts ++ .k .CurlyBracesOpen :: (us ++ [.k .CurlyBracesClose])))
      [.traitUse ps rules] := by
  refine ⟨by simp, fun r => ⟨[.traitUse ps rules], rfl, ?_⟩⟩
  norml
  refine use_prefix ?_
  unfold parseTraitUse
  stepc (nameList_step hP h _ (by nokw) (by nokw))
  stepc (eats_miss (by nokw))
  stepc expect_hit
  stepc (eats_miss (rules_noBrace hr hn _))
  stepc (rules_loop hP hr r true []).loop
  stepc expect_hit
  exact Step.pure

def memberStep (R : Rec) (last : Nat) (members : List Member) : P (List Member ⊕ (List Member × Option PErr)) := do
  let p ← getPos
  if p ≤ last then
    match ← attempt (parseClassStatement R) with
    | .ok ms => return .inl (members ++ ms)
    | .error e => return .inr (members, some e)
  else return .inr (members, none)

theorem parseClassStatementList_eq (R : Rec) : parseClassStatementList R = (do
    let n ← tokCount
    let last ← subP n 1
    loop (memberStep R last) []) := rfl

def MembersOK (toks : List TokSpan) (ts : List Token) (ms : List Member) : Prop :=
  ∀ r, ∃ ms' err, eraseMembers ms' = ms ∧ ∀ acc, Loops toks (memberStep theRec (toks.length - 1)) acc
    (ts ++ .k .CurlyBracesClose :: r) (acc ++ ms', err) (.k .CurlyBracesClose :: r)

theorem members_nil : MembersOK toks [] [] := by
  intro r
  refine ⟨[], some (errOf toks (parseClassStatement theRec) (.k .CurlyBracesClose :: r)), rfl,
    fun acc => Loops.done ?_⟩
  norml
  refine Step.with fun ht => ?_
  unfold memberStep
  stepc getPos_step
  rw [if_pos (posOf_last ht)]
  have hf : Fails toks (parseClassStatement theRec) (.k .CurlyBracesClose :: r) (.k .CurlyBracesClose :: r) := by
    unfold parseClassStatement
    failc (eats_miss (by nokw))
    failc (memberModifiers_step [] (.k .CurlyBracesClose :: r) (noMod_kw (by intro m; cases m <;> decide)))
    failc (eats_miss (by nokw))
    failc (eat_miss (by nokw))
    refine Fails.bind_left ?_
    failc (eats_miss (by nokw))
    rw [parseProperties_eq]
    refine Loops.fails ?_
    unfold propStep
    exact Fails.bind_left (expectVariable_miss (by simp))
  stepc hf.attempt
  exact Step.pure' (by simp)

theorem members_cons {ts us : List Token} {ms ns : List Member} (h : MemberOK toks ts ms) (h' : MembersOK toks us ns) :
    MembersOK toks (ts ++ us) (ms ++ ns) := by
  intro r
  obtain ⟨ms', hm, hs⟩ := h.2 (us ++ .k .CurlyBracesClose :: r)
  obtain ⟨ns', err, hns, hl⟩ := h' r
  refine ⟨ms' ++ ns', err, by rw [eraseMembers_append, hm, hns], fun acc => ?_⟩
  norml
  obtain ⟨t, xs, hx⟩ : ∃ t xs, ts = t :: xs := by
    cases ts with
    | nil => exact absurd rfl h.1
    | cons t xs => exact ⟨t, xs, rfl⟩
  refine Loops.more (s' := acc ++ ms') (l' := us ++ .k .CurlyBracesClose :: r) ?_ (by simp [hx]; omega) ?_
  · refine Step.with fun htl => ?_
    subst hx
    simp only [List.append_assoc, List.cons_append] at htl hs ⊢
    unfold memberStep
    stepc getPos_step
    rw [if_pos (posOf_last htl)]
    stepc hs.attempt
    exact Step.pure
  · have := hl (acc ++ ms')
    rw [List.append_assoc] at this
    exact this

theorem parseMembers_step {ts : List Token} {ms : List Member} (h : MembersOK toks ts ms) (r : List Token) :
    ∃ ms' stop, eraseMembers ms' = ms ∧
      Step toks (parseMembers theRec) (.k .CurlyBracesOpen :: (ts ++ .k .CurlyBracesClose :: r)) (ms', stop) r := by
  obtain ⟨ms', err, hm, hl⟩ := h r
  refine ⟨ms', (spanBefore toks r).stop, hm, Step.with fun ht => ?_⟩
  have : 1 ≤ toks.length := by
    have := ht.len
    simp at this
    omega
  unfold parseMembers
  stepc expect_hit
  refine Step.bind (a := (ms', err)) (l' := .k .CurlyBracesClose :: r) ?_ ?_
  · rw [parseClassStatementList_eq]
    stepc tokCount_step
    stepc (subP_step this)
    exact (hl []).loop
  dsimp only
  stepc expectOr_hit
  exact Step.pure

/-! ## Classes, interfaces, traits -/

theorem oo_stmt {k : Kw} {l r : List Token} {s : Stmt} (hk : ownBranch k = false)
    (h : Step toks (parseOoDeclaration theRec) (.k k :: l) s r) : Step toks theRec.stmt (.k k :: l) s r := by
  refine other_stmt (by rintro _ ⟨⟩; exact hk) ?_
  unfold parseOtherStmt
  stepc h.attempt
  exact Step.pure

theorem optNames_step (hP : Placed toks) {k : Kw} {ts : List Token} {ps : List Path} (h : OptNames k ts ps)
    (r : List Token) (hk : NoKw k r) (hn : NoKw .NsSeparator r) (hc : NoKw .Comma r) :
    Step toks (parseOptNames k) (ts ++ r) ps r := by
  unfold parseOptNames
  cases h with
  | none =>
    norml
    stepc (eats_miss hk)
    exact Step.pure
  | some h =>
    norml
    stepc eats_hit
    exact nameList_step hP h r hn hc

theorem s_trait (n : Text) {mts : List Token} {members : List Member} (hm : MembersOK toks mts members) :
    StmtOK toks false (.k .Trait :: .string n :: .k .CurlyBracesOpen :: (mts ++ [.k .CurlyBracesClose]))
      (bareS (.decl (.trait n members))) := by
  refine ⟨⟨_, _, rfl, rfl⟩, fun r _ => ?_⟩
  obtain ⟨ms', stop, hms, hs⟩ := parseMembers_step hm r
  by_cases htl : Tail toks (.k .Trait :: .string n :: .k .CurlyBracesOpen :: (mts ++ .k .CurlyBracesClose :: r))
  · obtain ⟨t, ht⟩ := tokBack_step (toks := toks) (l := .string n :: .k .CurlyBracesOpen :: (mts ++
      .k .CurlyBracesClose :: r)) 0 ⟨_, htl, by simp⟩
    refine ⟨.mk (.decl (.trait n ms')) (mkSpan t.span.start stop),
      by simp [Stmt.erase, StmtK.erase, Decl.erase, hms], ?_⟩
    norml
    refine oo_stmt rfl ?_
    unfold parseOoDeclaration
    stepc eats_hit
    stepc ht
    stepc expectString_hit
    stepc hs
    exact Step.pure
  · refine ⟨.mk (.decl (.trait n ms')) Span.new, by simp [Stmt.erase, StmtK.erase, Decl.erase, hms], ?_⟩
    norml
    exact fun h => absurd h htl

theorem s_interface (hP : Placed toks) (n : Text) {xts mts : List Token} {exts : List Path} {members : List Member}
    (hx : OptNames .Extends xts exts) (hm : MembersOK toks mts members) :
    StmtOK toks false (.k .Interface :: .string n :: (xts ++ .k .CurlyBracesOpen :: (mts ++ [.k .CurlyBracesClose])))
      (bareS (.decl (.interface n exts members))) := by
  refine ⟨⟨_, _, rfl, rfl⟩, fun r _ => ?_⟩
  obtain ⟨ms', stop, hms, hs⟩ := parseMembers_step hm r
  by_cases htl : Tail toks (.k .Interface :: .string n :: (xts ++ .k .CurlyBracesOpen :: (mts ++
      .k .CurlyBracesClose :: r)))
  · obtain ⟨t, ht⟩ := tokBack_step (toks := toks) (l := .string n :: (xts ++ .k .CurlyBracesOpen :: (mts ++
      .k .CurlyBracesClose :: r))) 0 ⟨_, htl, by simp⟩
    refine ⟨.mk (.decl (.interface n exts ms')) (mkSpan t.span.start stop),
      by simp [Stmt.erase, StmtK.erase, Decl.erase, hms], ?_⟩
    norml
    refine oo_stmt rfl ?_
    unfold parseOoDeclaration
    stepc (eats_miss (by nokw))
    stepc eats_hit
    stepc ht
    stepc expectString_hit
    stepc (optNames_step hP hx _ (by nokw) (by nokw) (by nokw))
    stepc hs
    exact Step.pure
  · refine ⟨.mk (.decl (.interface n exts ms')) Span.new, by simp [Stmt.erase, StmtK.erase, Decl.erase, hms], ?_⟩
    norml
    exact fun h => absurd h htl

theorem optBase_step (hP : Placed toks) {ts : List Token} {b : Option Path} (h : OptBase ts b) (r : List Token)
    (hk : NoKw .Extends r) (hn : NoKw .NsSeparator r) :
    Step toks (do
      if ← eats .Extends then
        let (p, _) ← parseName
        return some p
      else return none) (ts ++ r) b r := by
  cases h with
  | none =>
    norml
    stepc (eats_miss hk)
    exact Step.pure
  | some abs ns id =>
    obtain ⟨sp, hs⟩ := parseName_step hP abs ns id r hn
    norml
    stepc eats_hit
    stepc hs
    exact Step.pure

theorem classToks_head (ms : List ClassModifier) (l : List Token) :
    ∃ k us, classModifierToks ms ++ .k .Class :: l = .k k :: us ∧ (k = .Abstract ∨ k = .Final ∨ k = .Class) := by
  cases ms with
  | nil => exact ⟨_, _, rfl, by simp⟩
  | cons m ms => cases m <;> exact ⟨_, _, rfl, by simp [classModifierKw]⟩

theorem implements_kw {its : List Token} {impls : List Path} (h : OptNames .Implements its impls) (l : List Token)
    {k : Kw} (hk : k ≠ .Implements) (hl : NoKw k l) : NoKw k (its ++ l) := by
  cases h with
  | none => exact hl
  | some h => simp [NoKw]; exact fun h => hk h.symm

theorem s_class (hP : Placed toks) (ms : List ClassModifier) (n : Text) {xts its mts : List Token}
    {base : Option Path} {impls : List Path} {members : List Member} (hx : OptBase xts base)
    (hi : OptNames .Implements its impls) (hm : MembersOK toks mts members) :
    StmtOK toks false (classModifierToks ms ++ .k .Class :: .string n :: (xts ++ (its ++
        .k .CurlyBracesOpen :: (mts ++ [.k .CurlyBracesClose]))))
      (bareS (.decl (.cls (ClassModifiers.new ms) n base impls members))) := by
  obtain ⟨k, us, hk, hk'⟩ := classToks_head ms (.string n :: (xts ++ (its ++
    .k .CurlyBracesOpen :: (mts ++ [.k .CurlyBracesClose]))))
  refine ⟨⟨_, _, hk, by rcases hk' with rfl | rfl | rfl <;> rfl⟩, fun r _ => ?_⟩
  clear hk hk' us k
  obtain ⟨ms', stop, hms, hs⟩ := parseMembers_step hm r
  obtain ⟨k, us, hk, hk'⟩ := classToks_head ms (.string n :: (xts ++ (its ++
    .k .CurlyBracesOpen :: (mts ++ .k .CurlyBracesClose :: r))))
  by_cases htl : Tail toks (classModifierToks ms ++ .k .Class :: .string n :: (xts ++ (its ++
    .k .CurlyBracesOpen :: (mts ++ .k .CurlyBracesClose :: r))))
  · obtain ⟨t, ht⟩ := tokBack_step (toks := toks) (l := .string n :: (xts ++ (its ++ .k .CurlyBracesOpen :: (mts ++
      .k .CurlyBracesClose :: r)))) ms.length ⟨_, htl, by simp [classModifierToks]; omega⟩
    refine ⟨.mk (.decl (.cls (ClassModifiers.new ms) n base impls ms')) (mkSpan t.span.start stop),
      by simp [Stmt.erase, StmtK.erase, Decl.erase, hms], ?_⟩
    norml
    have hoo : Step toks (parseOoDeclaration theRec) (classModifierToks ms ++ .k .Class :: .string n :: (xts ++ (its ++
        .k .CurlyBracesOpen :: (mts ++ .k .CurlyBracesClose :: r))))
        (.mk (.decl (.cls (ClassModifiers.new ms) n base impls ms')) (mkSpan t.span.start stop)) r := by
      unfold parseOoDeclaration
      have h1 : ∀ k', k' = .Trait ∨ k' = .Interface → NoKw k' (classModifierToks ms ++ .k .Class :: .string n ::
          (xts ++ (its ++ .k .CurlyBracesOpen :: (mts ++ .k .CurlyBracesClose :: r)))) := by
        rw [hk]
        rintro k' (rfl | rfl) <;> rcases hk' with rfl | rfl | rfl <;> simp [NoKw]
      stepc (eats_miss (h1 _ (by simp)))
      stepc (eats_miss (h1 _ (by simp)))
      stepc (classModifiers_step ms _ (by nokw) (by nokw))
      stepc expect_hit
      stepc ht
      stepc expectString_hit
      stepc (optBase_step hP hx _ (implements_kw hi _ (by decide) (by nokw))
        (implements_kw hi _ (by decide) (by nokw)))
      stepc (optNames_step hP hi _ (by nokw) (by nokw) (by nokw))
      stepc hs
      exact Step.pure
    rw [hk] at hoo ⊢
    exact oo_stmt (by rcases hk' with rfl | rfl | rfl <;> rfl) hoo
  · refine ⟨.mk (.decl (.cls (ClassModifiers.new ms) n base impls ms')) Span.new,
      by simp [Stmt.erase, StmtK.erase, Decl.erase, hms], ?_⟩
    norml
    exact fun h => absurd h htl

/-! ## The top level -/

def topHead (t : Token) : Bool := stmtHead t || t == .k .Namespace || t == .k .Use

def TopOK (toks : List TokSpan) (ts : List Token) (s : Stmt) : Prop :=
  StartsWith topHead ts ∧ ∀ r, StmtEnd true r → ∃ s', Stmt.erase s' = s ∧
    Step toks (parseTopStatement theRec) (ts ++ r) s' r

theorem topHead_end {ts r : List Token} (h : StartsWith topHead ts) : StmtEnd true (ts ++ r) := by
  obtain ⟨t, us, rfl, ht⟩ := h
  have hn : ∀ k, topHead (.k k) = false → NoKw k (t :: us ++ r) := by
    intro k hk
    simp only [NoKw, List.cons_append, List.head?_cons, ne_eq, Option.some.injEq]
    rintro rfl
    rw [ht] at hk
    cases hk
  exact ⟨hn _ rfl, hn _ rfl, fun _ => ⟨hn _ rfl, hn _ rfl⟩⟩

theorem t_stmt {o : Bool} {ts : List Token} {s : Stmt} (h : StmtOK toks o ts s) : TopOK toks ts s := by
  obtain ⟨t, us, hx, ht⟩ := h.1
  refine ⟨⟨t, us, hx, by simp [topHead, ht]⟩, fun r hr => ?_⟩
  obtain ⟨s', hs, hst⟩ := h.2 r hr.mono
  refine ⟨s', hs, ?_⟩
  unfold parseTopStatement
  stepc (eat_miss (noKw_stmt h.1 rfl))
  stepc (eat_miss (noKw_stmt h.1 rfl))
  rw [← theRec_stmt]
  exact hst

theorem t_namespace (ns : List Text) (id : Text) :
    TopOK toks (.k .Namespace :: (nameToks ns id ++ [.k .SemiColon]))
      (bareS (.decl (.namespace (qualPath false ns id)))) := by
  refine ⟨⟨_, _, rfl, rfl⟩, fun r hr => ?_⟩
  obtain ⟨sp, -, hs⟩ := parseNamespaceName_step (toks := toks) ns id (.k .SemiColon :: r) (by nokw)
  refine ⟨.mk (.decl (.namespace (qualPath false ns id))) (mkSpan (spanBefore toks (nameToks ns id ++
    .k .SemiColon :: r)).start (spanBefore toks r).start), rfl, ?_⟩
  norml
  unfold parseTopStatement
  stepc eat_hit
  stepc hs
  stepc expect_hit
  exact Step.pure

def useStep (cs : List UseClause) : P (List UseClause ⊕ List UseClause) := do
  let abs ← eats .NsSeparator
  let (path, _) ← parseNamespaceName
  let alias_ : Option Text ← (do
    if ← eats .As then
      let (a, _) ← expectString
      return some a
    else return none)
  let cs := cs ++ [⟨{ path with isAbsolute := abs }, alias_⟩]
  if ← eats .Comma then return .inl cs else return .inr cs

theorem parseTopUse_eq (t : TokSpan) : parseTopUse t = (do
    let clauses ← loop useStep []
    let c ← expect .SemiColon
    return .mk (.use clauses) (mkSpan t.span.start c.span.stop)) := rfl

theorem useAbs_step (abs : Bool) (ns : List Text) (id : Text) (l : List Token) :
    Step toks (eats .NsSeparator) (qualToks abs ns id ++ l) abs (nameToks ns id ++ l) := by
  cases abs with
  | true => exact eats_hit
  | false =>
    obtain ⟨x, us, hx⟩ := nameToks_cons ns id
    have : NoKw .NsSeparator (nameToks ns id ++ l) := by simp [NoKw, hx]
    exact eats_miss this

theorem uses_loop {ts : List Token} {cs : List UseClause} (h : UseList ts cs) (r : List Token)
    (hn : NoKw .NsSeparator r) (hc : NoKw .Comma r) (ha : NoKw .As r) (acc : List UseClause) :
    Loops toks useStep acc (ts ++ r) (acc ++ cs) r := by
  induction h generalizing acc with
  | one abs ns id =>
    obtain ⟨sp, -, hs⟩ := parseNamespaceName_step (toks := toks) ns id r hn
    refine Loops.done ?_
    unfold useStep
    stepc (useAbs_step abs ns id r)
    stepc hs
    refine Step.bind (a := none) (l' := r) ?_ ?_
    · stepc (eats_miss ha)
      exact Step.pure
    try dsimp only
    stepc (eats_miss hc)
    exact Step.pure
  | oneAs abs ns id a =>
    obtain ⟨sp, -, hs⟩ := parseNamespaceName_step (toks := toks) ns id (.k .As :: .string a :: r) (by nokw)
    refine Loops.done ?_
    norml
    unfold useStep
    stepc (useAbs_step abs ns id _)
    stepc hs
    refine Step.bind (a := some a) (l' := r) ?_ ?_
    · stepc eats_hit
      stepc expectString_hit
      exact Step.pure
    try dsimp only
    stepc (eats_miss hc)
    exact Step.pure
  | @cons abs ns id ts cs h ih =>
    obtain ⟨sp, -, hs⟩ := parseNamespaceName_step (toks := toks) ns id (.k .Comma :: (ts ++ r)) (by nokw)
    norml
    refine Loops.more (s' := acc ++ [⟨qualPath abs ns id, none⟩]) (l' := ts ++ r) ?_ (by simp; omega)
      (loops_snoc ih acc _)
    unfold useStep
    stepc (useAbs_step abs ns id _)
    stepc hs
    refine Step.bind (a := none) (l' := .k .Comma :: (ts ++ r)) ?_ ?_
    · stepc (eats_miss (by nokw))
      exact Step.pure
    try dsimp only
    stepc eats_hit
    exact Step.pure
  | @consAs abs ns id a ts cs h ih =>
    obtain ⟨sp, -, hs⟩ := parseNamespaceName_step (toks := toks) ns id
      (.k .As :: .string a :: .k .Comma :: (ts ++ r)) (by nokw)
    norml
    refine Loops.more (s' := acc ++ [⟨qualPath abs ns id, some a⟩]) (l' := ts ++ r) ?_ (by simp; omega)
      (loops_snoc ih acc _)
    unfold useStep
    stepc (useAbs_step abs ns id _)
    stepc hs
    refine Step.bind (a := some a) (l' := .k .Comma :: (ts ++ r)) ?_ ?_
    · stepc eats_hit
      stepc expectString_hit
      exact Step.pure
    try dsimp only
    stepc eats_hit
    exact Step.pure

theorem t_use {ts : List Token} {cs : List UseClause} (h : UseList ts cs) :
    TopOK toks (.k .Use :: (ts ++ [.k .SemiColon])) (bareS (.use cs)) := by
  refine ⟨⟨_, _, rfl, rfl⟩, fun r hr => ?_⟩
  refine ⟨.mk (.use cs) (mkSpan (spanBefore toks (ts ++ .k .SemiColon :: r)).start (spanBefore toks r).stop),
    rfl, ?_⟩
  norml
  unfold parseTopStatement
  stepc (eat_miss (by nokw))
  stepc eat_hit
  rw [parseTopUse_eq]
  stepc (uses_loop h _ (by nokw) (by nokw) (by nokw) []).loop
  stepc expect_hit
  exact Step.pure

def topStep (R : Rec) (last : Nat) (stmts : List Stmt) : P (List Stmt ⊕ List Stmt) := do
  let p ← getPos
  if p ≤ last then
    let s ← parseTopStatement R
    return .inl (stmts ++ [s])
  else return .inr stmts

theorem parseTopStatementList_eq (R : Rec) : parseTopStatementList R = (do
    let n ← tokCount
    let last ← subP n 1
    loop (topStep R last) []) := rfl

def TopsOK (toks : List TokSpan) (ts : List Token) (ss : List Stmt) : Prop :=
  (ts = [] ∨ StartsWith topHead ts) ∧ (toks ≠ [] → ∃ ss', eraseStmts ss' = ss ∧
    ∀ acc, Loops toks (topStep theRec (toks.length - 1)) acc ts (acc ++ ss') [])

theorem tops_nil : TopsOK toks [] [] := by
  refine ⟨.inl rfl, fun hne => ⟨[], rfl, fun acc => Loops.done ?_⟩⟩
  unfold topStep
  stepc getPos_step
  have : 1 ≤ toks.length := by
    cases toks with
    | nil => exact absurd rfl hne
    | cons => simp
  rw [if_neg (by simp [posOf]; omega)]
  exact Step.pure' (by simp)

theorem tops_cons {ts us : List Token} {s : Stmt} {ss : List Stmt} (h : TopOK toks ts s) (h' : TopsOK toks us ss) :
    TopsOK toks (ts ++ us) (s :: ss) := by
  obtain ⟨t, xs, hx, ht⟩ := h.1
  refine ⟨.inr ⟨t, xs ++ us, by simp [hx], ht⟩, fun hne => ?_⟩
  obtain ⟨ss', hss, hl⟩ := h'.2 hne
  have he : StmtEnd true us := by
    rcases h'.1 with rfl | h0
    · exact ⟨by simp [NoKw], by simp [NoKw], fun _ => ⟨by simp [NoKw], by simp [NoKw]⟩⟩
    · have := topHead_end (r := []) h0
      simpa using this
  obtain ⟨s', hs, hst⟩ := h.2 us he
  refine ⟨s' :: ss', by simp [eraseStmts, hs, hss], fun acc => ?_⟩
  refine Loops.more (s' := acc ++ [s']) (l' := us) ?_ (by simp [hx]; omega) (loops_snoc hl acc _)
  refine Step.with fun htl => ?_
  subst hx
  simp only [List.cons_append] at htl hst ⊢
  unfold topStep
  stepc getPos_step
  rw [if_pos (posOf_last htl)]
  stepc hst
  exact Step.pure

end Pico
