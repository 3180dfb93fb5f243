import Verif.Lemmas.ParserRun
import Verif.Spec.Grammar
import Verif.Spec.Erase
/-!
# The parser on phrases of the grammar: names, variables, failures
-/
namespace Pico
open P

variable {toks : List TokSpan}

theorem Placed.spanBefore (hP : Placed toks) {t : Token} {l : List Token} (h : Tail toks (t :: l))
    (ht : isWord t = true) : 1 ≤ (spanBefore toks l).start := by
  have := List.mem_of_getElem? h.get
  exact hP _ this ht

theorem Tail.app {l l' : List Token} (h : Tail toks (l ++ l')) : Tail toks l' := by
  obtain ⟨pre, h⟩ := h
  exact ⟨pre ++ l, by simp [h]⟩

/-! ## What cannot follow -/

theorem noKw_endsExpr {s : Nat} {r : List Token} {k : Kw} (h : endsExpr s r = true)
    (h1 : closesExpr k = false) (h2 : infixLevel k = none) : NoKw k r := by
  unfold NoKw
  intro hk
  cases r with
  | nil => simp at hk
  | cons t r =>
    simp at hk
    subst hk
    simp [endsExpr, h1, h2] at h

theorem endsVar_of_endsExpr {s : Nat} {r : List Token} (h : endsExpr s r = true) : endsVar r = true := by
  unfold endsVar
  split
  · simp [endsExpr, closesExpr, infixLevel] at h
  · simp [endsExpr, closesExpr, infixLevel] at h
  · simp [endsExpr, closesExpr, infixLevel] at h
  · simp [endsExpr, closesExpr, infixLevel] at h
  · rfl

theorem noKw_endsVar {r : List Token} {k : Kw} (h : endsVar r = true) (hk : endsVar [.k k] = false) :
    NoKw k r := by
  unfold NoKw
  intro hk'
  cases r with
  | nil => simp at hk'
  | cons t r =>
    simp at hk'
    subst hk'
    have : endsVar (.k k :: r) = endsVar [.k k] := by cases k <;> rfl
    rw [this, hk] at h
    cases h

theorem endsExpr_mono {s s' : Nat} {r : List Token} (h : endsExpr s r = true) (hs : s ≤ s') :
    endsExpr s' r = true := by
  unfold endsExpr at *
  split at h
  · rfl
  · rename_i k l
    simp only [Bool.or_eq_true] at *
    rcases h with h | h
    · exact .inl h
    · right
      revert h
      cases infixLevel k with
      | none => simp
      | some lv => simp; omega
  · cases h

macro "nokw" : tactic => `(tactic| first
  | assumption
  | (simp [NoKw]; done)
  | exact noKw_endsExpr (by assumption) rfl rfl
  | exact noKw_endsVar (by assumption) rfl)

theorem head_ne_endsExpr {s : Nat} {r : List Token} (h : endsExpr s r = true) :
    (∀ x, r.head? ≠ some (.string x)) ∧ (∀ x, r.head? ≠ some (.variable x)) ∧
      (∀ x, r.head? ≠ some (.encaps x)) := by
  cases r with
  | nil => simp
  | cons t r => cases t <;> simp_all [endsExpr]

macro "stepc" h:term : tactic => `(tactic| (refine Step.bind $h ?_; try dsimp only [Option.isSome, ↓reduceIte, Bool.false_eq_true, Bool.not_true, Bool.not_false]))
macro "failc" h:term : tactic => `(tactic| (refine Fails.bind $h ?_; try dsimp only [Option.isSome, ↓reduceIte, Bool.false_eq_true, Bool.not_true, Bool.not_false]))

/-! ## Qualified names -/

theorem nameToks_cons (ns : List Text) (id : Text) : ∃ x us, nameToks ns id = .string x :: us := by
  cases ns with
  | nil => exact ⟨id, [], rfl⟩
  | cons x xs => exact ⟨x, _, rfl⟩

/-- The body of the loop of `namespaceFragments`. -/
def fragStep (frags : List (Text × Span)) : P (List (Text × Span) ⊕ List (Text × Span)) := do
  match ← eatString with
  | none => errHere [.string []]
  | some f =>
    let frags := frags ++ [f]
    let old ← getPos
    match ← eat .NsSeparator with
    | none => return .inr frags
    | some _ =>
      match ← eatString with
      | some _ =>
        let p ← getPos
        P.setPos (p - 1)
        return .inl frags
      | none =>
        P.setPos old
        return .inr frags

theorem namespaceFragments_eq : namespaceFragments = loop fragStep [] := rfl

theorem fragments_loop (ns : List Text) (id : Text) (r : List Token) (hr : NoKw .NsSeparator r) :
    ∃ sps : List Span, sps.length = ns.length + 1 ∧
      (∃ sp, sps.head? = some sp ∧ (Placed toks → Tail toks (nameToks ns id ++ r) → 1 ≤ sp.start)) ∧
      ∀ acc, Loops toks fragStep acc
        (nameToks ns id ++ r) (acc ++ (ns ++ [id]).zip sps) r := by
  induction ns with
  | nil =>
    refine ⟨[spanBefore toks r], rfl, ⟨_, rfl, fun hP ht => hP.spanBefore ht rfl⟩, fun acc => Loops.done ?_⟩
    show Step toks _ (.string id :: r) _ _
    unfold fragStep
    stepc eatString_hit
    stepc getPos_step
    stepc (eat_miss hr)
    exact Step.pure
  | cons x xs ih =>
    obtain ⟨sps, hl, -, h⟩ := ih
    obtain ⟨y, us, hy⟩ := nameToks_cons xs id
    refine ⟨spanBefore toks (.k .NsSeparator :: (nameToks xs id ++ r)) :: sps, by simp [hl],
      ⟨_, rfl, fun hP ht => hP.spanBefore ht rfl⟩, fun acc => ?_⟩
    have h' := h (acc ++ [(x, spanBefore toks (.k .NsSeparator :: (nameToks xs id ++ r)))])
    refine Loops.more (l' := nameToks xs id ++ r)
      (s' := acc ++ [(x, spanBefore toks (.k .NsSeparator :: (nameToks xs id ++ r)))]) ?_
      (by simp [nameToks]; omega) ?_
    · show Step toks _ (.string x :: .k .NsSeparator :: (nameToks xs id ++ r)) _ _
      unfold fragStep
      stepc eatString_hit
      stepc getPos_step
      stepc eat_hit
      refine Step.with fun ht => ?_
      rw [hy] at ht ⊢
      stepc eatString_hit
      stepc getPos_step
      stepc (setPos_prev ht)
      exact Step.pure
    · simpa [List.append_assoc] using h'

theorem joinNs_eq (xs : List Text) : joinNs xs = List.intercalate ['\\'] xs := by
  induction xs with
  | nil => rfl
  | cons x xs ih =>
    cases xs with
    | nil => simp [joinNs, List.intercalate]
    | cons y ys =>
      unfold joinNs
      rw [ih]
      simp [List.intercalate, List.intersperse]

theorem parseNamespaceName_step (ns : List Text) (id : Text) (r : List Token) (hr : NoKw .NsSeparator r) :
    ∃ sp : Span, (Placed toks → Tail toks (nameToks ns id ++ r) → 1 ≤ sp.start) ∧
      Step toks parseNamespaceName (nameToks ns id ++ r) (qualPath false ns id, sp) r := by
  obtain ⟨sps, hl, ⟨sp0, hsp0, hp⟩, h⟩ := fragments_loop (toks := toks) ns id r hr
  have hfs : ∃ first last, ((ns ++ [id]).zip sps).head? = some first ∧
      ((ns ++ [id]).zip sps).getLast? = some last ∧ last.1 = id ∧ first.2 = sp0 ∧
      ((ns ++ [id]).zip sps).dropLast.map Prod.fst = ns := by
    obtain ⟨init, z, rfl⟩ : ∃ init z, sps = init ++ [z] := by
      rcases List.eq_nil_or_concat sps with h0 | ⟨i, z, h0⟩
      · subst h0; simp at hl
      · exact ⟨i, z, by simp [h0]⟩
    have hli : ns.length = init.length := by simp at hl; omega
    rw [List.zip_append hli]
    refine ⟨?_, (id, z), ?_, by simp, rfl, ?_, ?_⟩
    · exact ((match ns with | [] => id | x :: _ => x), sp0)
    · cases ns with
      | nil => cases init <;> first | (simp at hli; done) | simp_all
      | cons x xs => cases init <;> first | (simp at hli; done) | simp_all
    · rfl
    · simp [List.map_fst_zip, hli]
  obtain ⟨first, last, h1, h2, h3, h4, h5⟩ := hfs
  refine ⟨mkSpan first.2.start last.2.stop, fun hP ht => by rw [h4]; exact hp hP ht, ?_⟩
  unfold parseNamespaceName
  rw [namespaceFragments_eq]
  stepc (Loops.loop (h []))
  simp only [List.nil_append, h1, h2]
  refine Step.pure' ?_
  rw [h5, h3]
  cases ns with
  | nil => simp [qualPath, Path.identifier]
  | cons x xs => simp [qualPath, joinNs_eq]

theorem parseName_step (hP : Placed toks) (abs : Bool) (ns : List Text) (id : Text) (r : List Token)
    (hr : NoKw .NsSeparator r) :
    ∃ sp : Span, Step toks parseName (qualToks abs ns id ++ r) (qualPath abs ns id, sp) r := by
  obtain ⟨sp, hsp, h⟩ := parseNamespaceName_step (toks := toks) ns id r hr
  cases abs with
  | false =>
    refine ⟨sp, ?_⟩
    unfold parseName
    obtain ⟨x, us, hx⟩ := nameToks_cons ns id
    have : NoKw .NsSeparator (qualToks false ns id ++ r) := by simp [NoKw, qualToks, hx]
    stepc (eats_miss this)
    stepc h
    exact Step.pure
  | true =>
    refine ⟨{ sp with start := sp.start - 1 }, ?_⟩
    show Step toks parseName (.k .NsSeparator :: (nameToks ns id ++ r)) _ _
    unfold parseName
    stepc eats_hit
    refine Step.with fun ht => ?_
    stepc h
    stepc (subP_step (hsp hP ht))
    exact Step.pure' (by simp [qualPath])

/-- No name starts here. -/
def NoName (l : List Token) : Prop := NoKw .NsSeparator l ∧ ∀ s, l.head? ≠ some (.string s)

theorem parseNamespaceName_fails {l : List Token} (h : ∀ s, l.head? ≠ some (.string s)) :
    Fails toks parseNamespaceName l l := by
  unfold parseNamespaceName
  rw [namespaceFragments_eq]
  refine Fails.bind_left (Loops.fails ?_)
  exact Fails.bind (eatString_miss h) Fails.errHere

theorem parseName_fails {l : List Token} (h : NoName l) : Fails toks parseName l l := by
  unfold parseName
  failc (eats_miss h.1)
  exact Fails.bind_left (parseNamespaceName_fails h.2)

theorem parseNameAsExpr_step (hP : Placed toks) (abs : Bool) (ns : List Text) (id : Text) (r : List Token)
    (hr : NoKw .NsSeparator r) :
    ∃ sp : Span, Step toks parseNameAsExpr (qualToks abs ns id ++ r) (.mk (.path (qualPath abs ns id)) sp) r := by
  obtain ⟨sp, h⟩ := parseName_step hP abs ns id r hr
  refine ⟨sp, ?_⟩
  unfold parseNameAsExpr
  stepc h
  exact Step.pure

theorem parseNameAsExpr_fails {l : List Token} (h : NoName l) : Fails toks parseNameAsExpr l l := by
  unfold parseNameAsExpr
  exact Fails.bind_left (parseName_fails h)

theorem qualToks_cons (abs : Bool) (ns : List Text) (id : Text) :
    ∃ t us, qualToks abs ns id = t :: us ∧ (t = .k .NsSeparator ∨ ∃ x, t = .string x) := by
  cases abs with
  | true => exact ⟨_, _, rfl, .inl rfl⟩
  | false =>
    obtain ⟨x, us, h⟩ := nameToks_cons ns id
    exact ⟨.string x, us, by simp [qualToks, h], .inr ⟨x, rfl⟩⟩

theorem noKw_qual {abs : Bool} {ns : List Text} {id : Text} {r : List Token} {k : Kw} (h : k ≠ .NsSeparator) :
    NoKw k (qualToks abs ns id ++ r) := by
  obtain ⟨t, us, h', ht⟩ := qualToks_cons abs ns id
  rw [h']
  rcases ht with rfl | ⟨x, rfl⟩
  · simp [NoKw]; exact fun h' => h h'.symm
  · simp [NoKw]

theorem parseClassName_step (hP : Placed toks) {ts : List Token} {p : Path} (h : ClassName ts p)
    (r : List Token) (hr : NoKw .NsSeparator r) :
    ∃ sp : Span, Step toks parseClassName (ts ++ r) (.mk (.path p) sp) r := by
  cases h with
  | static =>
    refine ⟨spanBefore toks r, ?_⟩
    unfold parseClassName
    show Step toks _ (.k .Static :: r) _ _
    stepc eat_hit
    exact Step.pure
  | qual abs ns id =>
    obtain ⟨sp, h⟩ := parseNameAsExpr_step hP abs ns id r hr
    refine ⟨sp, ?_⟩
    unfold parseClassName
    stepc (eat_miss (noKw_qual (by decide)))
    exact h

theorem parseClassName_fails {l : List Token} (h : NoName l) (hs : NoKw .Static l) :
    Fails toks parseClassName l l := by
  unfold parseClassName
  failc (eat_miss hs)
  exact parseNameAsExpr_fails h

theorem parseSimpleVariableExpr_step (n : Text) (r : List Token) :
    Step toks parseSimpleVariableExpr (.variable n :: r) (.mk (.var (.name n)) (spanBefore toks r)) r := by
  unfold parseSimpleVariableExpr parseSimpleVariable
  refine Step.bind (a := (Variable.name n, spanBefore toks r)) (l' := r) ?_ Step.pure
  stepc (eat_miss (by nokw))
  stepc eatVariable_hit
  exact Step.pure

/-- No simple variable starts here. -/
def NoVar (l : List Token) : Prop := NoKw .Dollar l ∧ ∀ s, l.head? ≠ some (.variable s)

theorem parseSimpleVariableExpr_fails {l : List Token} (h : NoVar l) :
    Fails toks parseSimpleVariableExpr l l := by
  unfold parseSimpleVariableExpr parseSimpleVariable
  refine Fails.bind_left ?_
  failc (eat_miss h.1)
  failc (eatVariable_miss h.2)
  exact Fails.errHere

theorem memberWords_ok : ∀ x ∈ memberWords, x.2.isReservedNonModifier = true ∧ x.2.repr? = some x.1 := by decide

theorem parseIdentifier_step {t : Token} {m : Text} (h : Ident t m) (r : List Token) :
    Step toks parseIdentifier (t :: r) (m, spanBefore toks r) r := by
  unfold parseIdentifier
  cases h with
  | word s =>
    stepc peek_step
    stepc getPos_step
    stepc setPos_next
    exact Step.pure
  | reserved k s h =>
    obtain ⟨h, hs⟩ := memberWords_ok _ h
    stepc peek_step
    rw [if_pos h]
    stepc getPos_step
    stepc setPos_next
    rw [hs]
    exact Step.pure

theorem parseIdentifierAsExpr_step {t : Token} {m : Text} (h : Ident t m) (r : List Token) :
    Step toks parseIdentifierAsExpr (t :: r) (.mk (.path ⟨false, none, m⟩) (spanBefore toks r)) r := by
  unfold parseIdentifierAsExpr
  stepc (parseIdentifier_step h r)
  exact Step.pure

theorem Ident.noVar {t : Token} {m : Text} (h : Ident t m) (r : List Token) : NoVar (t :: r) := by
  cases h with
  | word s => simp [NoVar, NoKw]
  | reserved k s h =>
    refine ⟨?_, by simp⟩
    intro hk
    simp at hk
    subst hk
    cases (memberWords_ok _ h).1

/-! ## The parts of `parse_variable` -/

theorem constScoped_var (hP : Placed toks) {cts : List Token} {p : Path} (hc : ClassName cts p) (so : Bool)
    (n : Text) (r : List Token) :
    ∃ s1 s2 s3, Step toks (parseConstScoped so) (cts ++ .k .ScopeOp :: .variable n :: r)
      (.mk (.path p) s1, .mk (.var (.name n)) s2, s3) r := by
  obtain ⟨sp, h⟩ := parseClassName_step hP hc (.k .ScopeOp :: .variable n :: r) (by nokw)
  refine ⟨sp, spanBefore toks r, mkSpan sp.start (spanBefore toks r).stop, ?_⟩
  unfold parseConstScoped
  stepc getPos_step
  refine Step.bind (l' := r) (a := some (.mk (.path p) sp, .mk (.var (.name n)) (spanBefore toks r),
    mkSpan sp.start (spanBefore toks r).stop)) ?_ Step.pure
  stepc h.attempt
  stepc eats_hit
  unfold constScopedTail
  stepc (parseSimpleVariableExpr_step n r).attempt
  exact Step.pure

theorem constScoped_call (hP : Placed toks) {cts : List Token} {p : Path} (hc : ClassName cts p)
    {t : Token} {m : Text} (hm : Ident t m) (r : List Token) :
    ∃ s1 s2 s3, Step toks (parseConstScoped false) (cts ++ .k .ScopeOp :: t :: .k .ParenthesesOpen :: r)
      (.mk (.path p) s1, .mk (.path ⟨false, none, m⟩) s2, s3) (.k .ParenthesesOpen :: r) := by
  obtain ⟨sp, h⟩ := parseClassName_step hP hc (.k .ScopeOp :: t :: .k .ParenthesesOpen :: r) (by nokw)
  refine ⟨sp, spanBefore toks (.k .ParenthesesOpen :: r),
    mkSpan sp.start (spanBefore toks (.k .ParenthesesOpen :: r)).stop, ?_⟩
  unfold parseConstScoped
  stepc getPos_step
  refine Step.bind (l' := .k .ParenthesesOpen :: r) (a := some (.mk (.path p) sp, .mk (.path ⟨false, none, m⟩)
    (spanBefore toks (.k .ParenthesesOpen :: r)),
    mkSpan sp.start (spanBefore toks (.k .ParenthesesOpen :: r)).stop)) ?_ Step.pure
  stepc h.attempt
  stepc eats_hit
  unfold constScopedTail
  stepc (parseSimpleVariableExpr_fails (hm.noVar _)).attempt
  stepc (parseIdentifierAsExpr_step hm _)
  stepc nextIs_hit
  exact Step.pure

/-- `A::B` that is not a call. -/
theorem constScoped_const (hP : Placed toks) {cts : List Token} {p : Path} (hc : ClassName cts p)
    {t : Token} {m : Text} (hm : Ident t m) (r : List Token) (hr : NoKw .ParenthesesOpen r) :
    Fails toks (parseConstScoped false) (cts ++ .k .ScopeOp :: t :: r) (cts ++ .k .ScopeOp :: t :: r) := by
  obtain ⟨sp, h⟩ := parseClassName_step hP hc (.k .ScopeOp :: t :: r) (by nokw)
  refine Fails.with fun ht => ?_
  unfold parseConstScoped
  failc getPos_step
  refine Fails.bind (l' := r) (a := none) ?_ ?_
  · stepc h.attempt
    stepc eats_hit
    unfold constScopedTail
    stepc (parseSimpleVariableExpr_fails (hm.noVar _)).attempt
    stepc (parseIdentifierAsExpr_step hm _)
    stepc (nextIs_miss hr)
    exact Step.pure
  · dsimp only
    failc (rewind_step ht)
    exact Fails.errHere

/-- A class name that is not followed by `::`. -/
theorem constScoped_name (hP : Placed toks) {cts : List Token} {p : Path} (hc : ClassName cts p) (so : Bool)
    (r : List Token) (hn : NoKw .NsSeparator r) (hr : NoKw .ScopeOp r) :
    Fails toks (parseConstScoped so) (cts ++ r) (cts ++ r) := by
  obtain ⟨sp, h⟩ := parseClassName_step hP hc r hn
  refine Fails.with fun ht => ?_
  unfold parseConstScoped
  failc getPos_step
  refine Fails.bind (l' := r) (a := none) ?_ ?_
  · stepc h.attempt
    stepc (eats_miss hr)
    exact Step.pure
  · dsimp only
    failc (rewind_step ht)
    exact Fails.errHere

theorem constScoped_none {so : Bool} {l : List Token} (h : NoName l) (hs : NoKw .Static l) :
    Fails toks (parseConstScoped so) l l := by
  refine Fails.with fun ht => ?_
  unfold parseConstScoped
  failc getPos_step
  refine Fails.bind (l' := l) (a := none) ?_ ?_
  · stepc (parseClassName_fails h hs).attempt
    exact Step.pure
  · dsimp only
    failc (rewind_step ht)
    exact Fails.errHere

theorem fnCall_step (hP : Placed toks) (abs : Bool) (ns : List Text) (id : Text) (r : List Token) :
    ∃ sp, Step toks (parseFnCallBaseItem false) (qualToks abs ns id ++ .k .ParenthesesOpen :: r)
      (.mk (.path (qualPath abs ns id)) sp) (.k .ParenthesesOpen :: r) := by
  obtain ⟨sp, h⟩ := parseNameAsExpr_step hP abs ns id (.k .ParenthesesOpen :: r) (by nokw)
  refine ⟨sp, ?_⟩
  unfold parseFnCallBaseItem
  try dsimp only [↓reduceIte, Bool.false_eq_true]
  stepc getPos_step
  refine Step.bind (l' := .k .ParenthesesOpen :: r) (a := some (.mk (.path (qualPath abs ns id)) sp)) ?_ Step.pure
  stepc h.attempt
  stepc nextIs_hit
  exact Step.pure

theorem fnCall_name (hP : Placed toks) (abs : Bool) (ns : List Text) (id : Text) (r : List Token)
    (hn : NoKw .NsSeparator r) (hr : NoKw .ParenthesesOpen r) :
    Fails toks (parseFnCallBaseItem false) (qualToks abs ns id ++ r) (qualToks abs ns id ++ r) := by
  obtain ⟨sp, h⟩ := parseNameAsExpr_step hP abs ns id r hn
  refine Fails.with fun ht => ?_
  unfold parseFnCallBaseItem
  try dsimp only [↓reduceIte, Bool.false_eq_true]
  failc getPos_step
  refine Fails.bind (l' := r) (a := none) ?_ ?_
  · stepc h.attempt
    stepc (nextIs_miss hr)
    exact Step.pure
  · dsimp only
    failc (rewind_step ht)
    exact Fails.errHere

theorem fnCall_none {so : Bool} {l : List Token} (h : NoName l) :
    Fails toks (parseFnCallBaseItem so) l l := by
  refine Fails.with fun ht => ?_
  unfold parseFnCallBaseItem
  cases so with
  | true => exact Fails.errHere
  | false =>
    try dsimp only [↓reduceIte, Bool.false_eq_true]
    failc getPos_step
    refine Fails.bind (l' := l) (a := none) ?_ ?_
    · stepc (parseNameAsExpr_fails h).attempt
      exact Step.pure
    · dsimp only
      failc (rewind_step ht)
      exact Fails.errHere

theorem ClassName.fnCall_fails (hP : Placed toks) {cts : List Token} {p : Path} (hc : ClassName cts p)
    (r : List Token) (hn : NoKw .NsSeparator r) (hr : NoKw .ParenthesesOpen r) :
    Fails toks (parseFnCallBaseItem false) (cts ++ r) (cts ++ r) := by
  cases hc with
  | static => exact fnCall_none ⟨by simp [NoKw], by simp⟩
  | qual abs ns id => exact fnCall_name hP abs ns id r hn hr

/-- Nothing that `parse_dereferencable_scalar` accepts starts here. -/
def NoDeref (l : List Token) : Prop :=
  NoKw .Array l ∧ NoKw .SquareBracketOpen l ∧ ∀ s, l.head? ≠ some (.encaps s)

theorem deref_fails {R : Rec} {l : List Token} (h : NoDeref l) :
    Fails toks (parseDereferencableScalar R) l l := by
  unfold parseDereferencableScalar
  failc (eat_miss h.1)
  failc (eat_miss h.2.1)
  failc (eatEncaps_miss h.2.2)
  exact Fails.errHere

theorem baseVariable_fails {R : Rec} {l : List Token} (hp : NoKw .ParenthesesOpen l) (hv : NoVar l)
    (hd : NoDeref l) : Fails toks (parseBaseVariable R false) l l := by
  unfold parseBaseVariable
  dsimp only [↓reduceIte, Bool.false_eq_true]
  failc (eat_miss hp)
  failc (parseSimpleVariableExpr_fails hv).attempt
  failc (deref_fails hd).attempt
  exact Fails.unpack

/-- The base of a variable fails as soon as its three alternatives do. -/
theorem variableBase_fails {R : Rec} {so : Bool} {l : List Token}
    (h1 : Fails toks (parseConstScoped so) l l) (h2 : Fails toks (parseFnCallBaseItem so) l l)
    (h3 : Fails toks (parseBaseVariable R so) l l) : Fails toks (parseVariableBase R so) l l := by
  refine Fails.with fun ht => ?_
  unfold parseVariableBase
  failc getPos_step
  failc h1.attempt
  failc h2.attempt
  failc h3.attempt
  failc (rewind_step ht)
  exact Fails.fail

theorem variable_fails {R : Rec} {so : Bool} {l : List Token}
    (h : Fails toks (parseVariableBase R so) l l) : Fails toks (parseVariable R so none) l l := by
  unfold parseVariable
  exact Fails.bind_left h

end Pico
