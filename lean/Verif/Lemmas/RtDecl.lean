import Verif.Lemmas.RtPost
/-!
# The printed form of functions, classes and their members
-/
namespace Pico

variable {dbl : Text → Text}

/-! ### Names -/

theorem blank_open {x : Char} {r : Text} (hx : (x == ' ' || x == '\t' || x == ')') = false) (b y : Text) :
    ' ' :: x :: r = b ++ ')' :: y → ¬ Spaces b := by
  simp only [Bool.or_eq_false_iff, beq_eq_false_iff_ne] at hx
  intro h hs
  cases b with
  | nil => injection h with h1 h2; exact absurd h1 (by decide)
  | cons c b =>
    injection h with h1 h2
    cases b with
    | nil => injection h2 with h3 h4; exact hx.2 h3
    | cons c' b =>
      injection h2 with h3 h4
      rcases hs c' (by simp) with rfl | rfl
      · exact hx.1.1 h3
      · exact hx.1.2 h3

theorem word_nocast {t : Text} (h : isIdentifier t = true) {x : Char} {r : Text} (hx : (x == ' ' || x == '\t' || x == ')') = false) :
    ¬ CastAhead (t ++ ' ' :: x :: r) := not_cast_word h rfl fun _ => blank_open hx

theorem nameOk_id {t : Text} (h : nameOk t = true) : isIdentifier t = true := by
  unfold nameOk at h
  simp only [Bool.and_eq_true] at h
  exact h.1.1

theorem path_nocast {p : Path} (h : pathOk p = true) {t : Text} (ht : chunkText (cPath p) = some t) {x : Char} {r : Text}
    (hx : (x == ' ' || x == '\t' || x == ')') = false) : ¬ CastAhead (t ++ ' ' :: x :: r) := by
  obtain ⟨ab, ns, id⟩ := p
  cases ab with
  | true =>
    have : ∃ t', t = '\\' :: t' := by
      simp only [cPath, cnd, if_true, w, List.cons_append, List.nil_append, chunkText] at ht
      obtain ⟨y, -, hy⟩ := Option.map_eq_some_iff.1 ht
      exact ⟨y, hy.symm⟩
    obtain ⟨t', rfl⟩ := this
    exact not_cast_head rfl
  | false =>
    unfold pathOk at h
    rw [Bool.and_eq_true] at h
    have hr : t = render (nameItems (nsSegs ⟨false, ns, id⟩) id) := by
      rw [render_name]
      unfold nsSegs
      cases ns with
      | none =>
        simp [cPath, cnd, w, chunkText] at ht
        simp [ht]
      | some y =>
        dsimp only
        rw [if_neg (splitNs_ne y), intercalate_split]
        simp [cPath, cnd, w, chunkText] at ht
        simp [ht]
    subst hr
    cases hs : nsSegs ⟨false, ns, id⟩ with
    | nil =>
      have : render (nameItems [] id) = id := by simp [nameItems, render, Item.text, Lexeme.text]
      rw [this]
      exact word_nocast (nameOk_id h.2) hx
    | cons y ys =>
      rw [hs] at h
      simp only [nameItems, render, Item.text, Lexeme.text, List.append_assoc]
      simp only [List.all_cons, Bool.and_eq_true] at h
      refine not_cast_word (nameOk_id h.1.1) rfl fun _ b r' he hsp => ?_
      cases b with
      | nil => injection he with h1 h2; exact absurd h1 (by decide)
      | cons c b =>
        injection he with h1 h2
        subst h1
        rcases hsp _ (List.mem_cons_self ..) with h | h <;> exact absurd h (by decide)

theorem qual_of {p : Path} (C : Bool → List Text → Text → Path → Prop) (h : C p.isAbsolute (nsSegs p) p.ident (qualPath p.isAbsolute (nsSegs p) p.ident)) :
    C p.isAbsolute (nsSegs p) p.ident p := by rwa [qualPath_self] at h

theorem paths_piece : ∀ ps : List Path, ps ≠ [] → ps.all pathOk = true →
    ∃ is ts, Piece 0 0 (Fo false) (cPaths true ps) is ts ∧ NameList ts ps
  | [], hne, _ => absurd rfl hne
  | [p], _, h => by
    rw [List.all_cons, Bool.and_eq_true] at h
    obtain ⟨is, hp, -⟩ := piece_path (a := 0) h.1
    exact ⟨is, _, hp.text (chunkText_end _), qual_of (fun ab ns id q => NameList (qualToks ab ns id) [q]) (.one ..)⟩
  | p :: q :: ps, _, h => by
    rw [List.all_cons, Bool.and_eq_true] at h
    obtain ⟨is, hp, -⟩ := piece_path (a := 0) h.1
    obtain ⟨js, us, hp', hn⟩ := paths_piece (q :: ps) nofun h.2
    exact ⟨_, _, hp.then ((litA c!", " [.k .Comma] 0 0 (by decide) rfl).free hp') (by decide),
      qual_of (fun ab ns id x => NameList (qualToks ab ns id ++ .k .Comma :: us) (x :: q :: ps)) (.cons _ _ _ hn)⟩

/-! ### Parameters -/

/-- An optional value behind a variable or parameter. -/
def OptC (dbl : Text → Text) (e : Option Expr) : Prop := ∀ e', e = some e' → EClaim dbl e'

def cDflt (dbl : Text → Text) (i : Nat) (e : Option Expr) : List Chunk :=
  match e with
  | some e => w c!"=" ⧺ cExpr dbl i e
  | none => []

theorem dflt_piece {n : Text} {e : Option Expr} (hn : isIdentifier n = true) (h : OptC dbl e) (i : Nat) :
    ∃ is ts, Piece 0 0 (Fo true) (w c!"$" ⧺ w n ⧺ cDflt dbl i e) (.lex (.var n) :: is) (.variable n :: ts) ∧ Derives .dflt ts (eraseOpt e) := by
  cases e with
  | none => exact ⟨_, _, ((piece_var hn).mono fun _ h => (h : Fo true _).weak).text (by simp [cDflt]), .dflt_none⟩
  | some e =>
    obtain ⟨is, ts, he⟩ := h e rfl i
    obtain ⟨s, hs⟩ := he.any
    exact ⟨_, _, (piece_var hn).then ((lit c!"=" [.k .Equal] 0 0 (.sym c!"=") (by decide) rfl).sym he.pc' he.st (by decide)) (by decide), .dflt_some hs⟩

/-- The printed form begins with `$`, `&` or a dot. -/
def PHead (is : List Item) : Prop := ∀ rest, ∃ x y, render is ++ rest = x :: y ∧ (x = '$' ∨ x = '&' ∨ x = '.')

theorem PHead.nocast {is : List Item} (h : PHead is) : Nocast is := by
  intro rest _
  obtain ⟨x, y, hxy, hx⟩ := h rest
  rw [hxy]
  rcases hx with rfl | rfl | rfl <;> exact not_cast_head rfl

section
variable {cs : List Chunk} {is : List Item} {ts : List Token} {P : Text → Prop}

theorem ref_piece (r : Bool) (h : Piece 0 0 P cs is ts) (hh : ∀ rest, ∃ x y, render is ++ rest = x :: y ∧ (x = '$' ∨ x = '.')) :
    ∃ is', Piece 0 0 P (cnd r (w c!"&") ⧺ cs) is' (refToks r ++ ts) ∧ PHead is' := by
  cases r with
  | false =>
    refine ⟨is, h, fun rest => ?_⟩
    obtain ⟨x, y, hxy, hx⟩ := hh rest
    exact ⟨x, y, hxy, hx.elim .inl fun h => .inr (.inr h)⟩
  | true =>
    refine ⟨_, (lit c!"&" [.k .Ampersand] 0 0 (.sym c!"&") (by decide) rfl).append h fun rest _ _ => ?_, fun rest => ⟨'&', render is ++ rest, rfl, .inr (.inl rfl)⟩⟩
    obtain ⟨x, y, hxy, hs⟩ := hh rest
    rw [hxy]
    intro z hz
    cases hz
    rcases hs with rfl | rfl <;> decide

theorem variadic_piece (v : Bool) {n : Text} (h : Piece 0 0 P cs (.lex (.var n) :: is) ts) :
    ∃ is', Piece 0 0 P (cnd v (w c!"...") ⧺ cs) is' (variadicToks v ++ ts) ∧ ∀ rest, ∃ x y, render is' ++ rest = x :: y ∧ (x = '$' ∨ x = '.') := by
  cases v with
  | false => exact ⟨_, h, fun rest => ⟨'$', _, rfl, .inl rfl⟩⟩
  | true => exact ⟨_, (litA c!"..." [.k .Ellipsis] 0 0 (by decide) rfl).free h, fun rest => ⟨'.', _, rfl, .inr rfl⟩⟩

theorem ty_piece {ty : Option Ty} (ht : tyOk ty = true) (h : Piece 0 0 P cs is ts) (hh : PHead is) :
    ∃ is' us, Piece 0 0 P (opt ty (fun t => cTy t ⧺ w c!" ") ⧺ cs) is' (us ++ ts) ∧ TypeHint us ty ∧ Nocast is' := by
  have hb := (litA c!" " [] 0 0 (by decide) rfl).free h
  cases ty with
  | none => exact ⟨is, [], h, .none, hh.nocast⟩
  | some t =>
    cases t with
    | Array =>
      refine ⟨_, _, ((lit c!"array" [.k .Array] 0 0 .word (by decide) rfl).wordThen hb rfl).text rfl, .array, ?_⟩
      intro rest _
      obtain ⟨x, y, hxy, hx⟩ := hh rest
      show ¬ CastAhead ((c!"array" ++ ' ' :: render is) ++ rest)
      have := word_nocast (t := c!"array") (by decide) (x := x) (r := y) (by rcases hx with rfl | rfl | rfl <;> rfl)
      rw [← hxy] at this
      exact this
    | Callable =>
      refine ⟨_, _, ((lit c!"callable" [.k .Callable] 0 0 .word (by decide) rfl).wordThen hb rfl).text rfl, .callable, ?_⟩
      intro rest _
      obtain ⟨x, y, hxy, hx⟩ := hh rest
      show ¬ CastAhead ((c!"callable" ++ ' ' :: render is) ++ rest)
      have := word_nocast (t := c!"callable") (by decide) (x := x) (r := y) (by rcases hx with rfl | rfl | rfl <;> rfl)
      rw [← hxy] at this
      exact this
    | Object p =>
      cases p with
      | none => cases ht
      | some p =>
        obtain ⟨js, hp, -⟩ := piece_path (a := 0) (show pathOk p = true from ht)
        have hall : Piece 0 0 P (cPath p ⧺ w c!" " ⧺ cs) (js ++ (litItems c!" " ++ is)) (qualToks p.isAbsolute (nsSegs p) p.ident ++ ([] ++ ts)) := by
          refine hp.append hb fun rest _ _ => ?_
          obtain ⟨x, y, hxy, hx⟩ := hh rest
          show Fo false ((' ' :: render is) ++ rest)
          rw [List.cons_append, hxy]
          rcases hx with rfl | rfl | rfl <;> exact fo_blank (by decide)
        refine ⟨_, _, hall.text ?_, qual_of (fun ab ns id q => TypeHint (qualToks ab ns id) (some (.Object (some q)))) (.name ..), ?_⟩
        · show chunkText ((cPath p ⧺ w c!" ") ⧺ cs) = _
          rw [List.append_assoc]
        · intro rest _
          obtain ⟨x, y, hxy, hx⟩ := hh rest
          rw [render_append, List.append_assoc]
          show ¬ CastAhead (render js ++ ((' ' :: render is) ++ rest))
          rw [List.cons_append, hxy]
          refine path_nocast ht hp.txt ?_
          rcases hx with rfl | rfl | rfl <;> rfl
    | _ => cases ht

end

/-- A parameter. -/
def ParamC (dbl : Text → Text) : Param → Prop
  | .mk n _ _ t d => isIdentifier n = true ∧ tyOk t = true ∧ OptC dbl d

theorem param_piece {q : Param} (h : ParamC dbl q) (i : Nat) : ∃ is ts, Piece 0 0 (Fo true) (cParam dbl i q) is ts ∧ Nocast is ∧
    Derives .params ts [q.erase] ∧ ∀ us qs, Derives .params us qs → Derives .params (ts ++ .k .Comma :: us) (q.erase :: qs) := by
  obtain ⟨n, r, v, t, d⟩ := q
  obtain ⟨h1, h2, h3⟩ := h
  obtain ⟨is1, ts1, hp1, hd⟩ := dflt_piece h1 h3 i
  obtain ⟨is2, hp2, hh2⟩ := variadic_piece v hp1
  obtain ⟨is3, hp3, hh3⟩ := ref_piece r hp2 hh2
  obtain ⟨is4, us, hp4, ht, hn⟩ := ty_piece h2 hp3 hh3
  refine ⟨is4, _, hp4.text (by cases d <;> rfl), hn, .params_one n r v ht hd, fun us' qs hq => ?_⟩
  have := DerivesX.params_cons n r v ht hd hq
  simpa [Param.erase] using this

theorem params_piece (i : Nat) : ∀ qs : List Param, qs ≠ [] → (∀ q ∈ qs, ParamC dbl q) →
    ∃ is ts, Piece 0 0 (Fo true) (cParams dbl i true qs) is ts ∧ Nocast is ∧ Derives .params ts (eraseParams qs)
  | [], hne, _ => absurd rfl hne
  | [e], _, h => by
    obtain ⟨is, ts, hp, hn, hd, -⟩ := param_piece (h e (by simp)) i
    exact ⟨is, ts, hp.text (chunkText_end _), hn, hd⟩
  | e :: e2 :: es, _, h => by
    obtain ⟨is, ts, he, hn, -, hd⟩ := param_piece (h e (by simp)) i
    obtain ⟨js, us, hp, -, hd'⟩ := params_piece i (e2 :: es) nofun fun x hx => h x (List.mem_cons_of_mem _ hx)
    exact ⟨_, _, he.then ((litA c!"," [.k .Comma] 0 0 (by decide) rfl).free hp) (by decide), hn.append, hd _ _ hd'⟩

/-! ### Functions -/

theorem captures_piece : ∀ vs : List (Bool × Text), vs ≠ [] → useVarsOk vs = true →
    ∃ is ts, Piece 0 0 (Fo false) (cUseVars true vs) is ts ∧ Captures ts vs ∧ Nocast is
  | [], hne, _ => absurd rfl hne
  | [(r, v)], _, h => by
    simp only [useVarsOk, List.all_cons, Bool.and_eq_true] at h
    obtain ⟨is, hp, hh⟩ := ref_piece r (piece_var h.1) fun rest => ⟨'$', _, rfl, .inl rfl⟩
    refine ⟨is, _, hp.text ?_, .one r v, hh.nocast⟩
    show chunkText (cnd r (w c!"&") ⧺ w c!"$" ⧺ w v ⧺ []) = _
    rw [List.append_nil]
  | (r, v) :: y :: vs, _, h => by
    simp only [useVarsOk] at h
    rw [List.all_cons, Bool.and_eq_true] at h
    obtain ⟨js, us, hp', hc, -⟩ := captures_piece (y :: vs) nofun h.2
    have hv := (piece_var (a := 0) h.1).then ((litA c!", " [.k .Comma] 0 0 (by decide) rfl).free hp') (by decide)
    obtain ⟨is, hp, hh⟩ := ref_piece r hv fun rest => ⟨'$', _, rfl, .inl rfl⟩
    exact ⟨is, _, hp, .cons r v hc, hh.nocast⟩

theorem uses_piece (closure : Bool) (vs : List (Bool × Text)) (h : useVarsOk vs = true) (hc : closure = true ∨ vs = []) {cs : List Chunk} {is : List Item}
    {ts : List Token} {b : Nat} (hp : Piece 0 b Any cs is ts) :
    ∃ is' us, Piece 0 b Any (cnd (!vs.isEmpty) (w c!"use (" ⧺ cUseVars true vs ⧺ w c!") ") ⧺ cs) is' (us ++ ts) ∧ UseClauses closure us vs := by
  cases vs with
  | nil => exact ⟨is, [], hp, .none _⟩
  | cons v vs =>
    rcases hc with rfl | hc
    · obtain ⟨js, us, hv, hd, hn⟩ := captures_piece (v :: vs) nofun h
      have hu := (lit c!"use (" [.k .Use, .k .ParenthesesOpen] 0 0 .opn (by decide) rfl).opn (hv.then (litA c!") " [.k .ParenthesesClose] 0 0 (by decide) rfl) (by decide)) hn.append
      exact ⟨_, _, hu.free hp, .some hd⟩
    · cases hc

/-- The statements of a block. -/
def BlockC (dbl : Text → Text) (b : List Stmt) : Prop := ∀ i, ∃ is ts, Piece 0 0 Any (cStmts dbl i b) is ts ∧ Derives .stmts ts (eraseStmts b)

theorem block_piece {b : List Stmt} (h : BlockC dbl b) (i : Nat) : ∃ is ts, Piece 0 0 Any (cBlock i (cStmts dbl (i + 1) b)) is
    (.k .CurlyBracesOpen :: (ts ++ [.k .CurlyBracesClose])) ∧ Derives .stmts ts (eraseStmts b) := by
  obtain ⟨is, ts, hp, hd⟩ := h (i + 1)
  exact ⟨_, ts, (litA c!"{\n" [.k .CurlyBracesOpen] 0 1 (by decide) rfl).free ((hp.up 1).free
    ((litA c!"}\n" [.k .CurlyBracesClose] 1 0 (by decide) rfl).ind i)), hd⟩

/-- A function from its parameter list on. -/
def FnC (dbl : Text → Text) (closure abs : Bool) : FnDecl → Prop
  | .mk params body usev _ => (∀ q ∈ params, ParamC dbl q) ∧ useVarsOk usev = true ∧ (match body with
    | some b => BlockC dbl b ∧ (closure = true ∨ usev = [])
    | none => abs = true ∧ closure = false ∧ usev = [])

theorem fn_tail {closure abs rr : Bool} {params : List Param} {body : Option (List Stmt)} {usev : List (Bool × Text)}
    (h : FnC dbl closure abs (.mk params body usev rr)) (i : Nat) : ∃ is ts, Piece 0 0 Any (w c!"(" ⧺ cParams dbl i true params ⧺ w c!") " ⧺
      cnd (!usev.isEmpty) (w c!"use (" ⧺ cUseVars true usev ⧺ w c!") ") ⧺
      (match body with
       | some b => cBlock i (cStmts dbl (i + 1) b)
       | none => w c!";")) is ts ∧ Derives (.fn closure abs rr) ts (FnDecl.erase (.mk params body usev rr)) := by
  obtain ⟨h1, h2, h3⟩ := h
  have par : ∀ {cs : List Chunk} {is : List Item} {ts : List Token}, Piece 0 0 Any cs is ts → ∃ is' us,
      Piece 0 0 Any (w c!"(" ⧺ cParams dbl i true params ⧺ w c!") " ⧺ cs) is' (.k .ParenthesesOpen :: (us ++ .k .ParenthesesClose :: ts)) ∧
      Derives .params us (eraseParams params) := by
    intro cs is ts hp
    have hc := (litA c!") " [.k .ParenthesesClose] 0 0 (by decide) rfl).free hp
    cases params with
    | nil =>
      refine ⟨_, [], (lit c!"(" [.k .ParenthesesOpen] 0 0 .opn (by decide) rfl).opn hc ?_, .params_nil⟩
      intro rest _
      exact not_cast_head rfl
    | cons q qs =>
      obtain ⟨js, us, hp', hn, hd⟩ := params_piece i (q :: qs) nofun h1
      exact ⟨_, us, (lit c!"(" [.k .ParenthesesOpen] 0 0 .opn (by decide) rfl).opn (hp'.then hc (by decide)) hn.append, hd⟩
  cases body with
  | none =>
    obtain ⟨rfl, rfl, rfl⟩ := h3
    obtain ⟨is, us, hp, hd⟩ := par (litA c!";" [.k .SemiColon] 0 0 (by decide) rfl)
    exact ⟨is, _, hp, .fn_abstract hd⟩
  | some b =>
    obtain ⟨js, vs, hb, hbd⟩ := block_piece h3.1 i
    obtain ⟨ks, xs, hu, hud⟩ := uses_piece closure usev h2 h3.2 hb
    obtain ⟨is, us, hp, hd⟩ := par hu
    exact ⟨is, _, hp, .fn_body hd hud hbd⟩

theorem amp_piece (r : Bool) {cs : List Chunk} {is : List Item} {ts : List Token} (h : Piece 0 0 Any cs is ts)
    (hh : ∀ rest, ∃ x y, render is ++ rest = x :: y ∧ stops c!"&" x = true) : ∃ is', Piece 0 0 Any (cnd r (w c!"&") ⧺ cs) is' (refToks r ++ ts) := by
  cases r with
  | false => exact ⟨is, h⟩
  | true =>
    refine ⟨_, (lit c!"&" [.k .Ampersand] 0 0 (.sym c!"&") (by decide) rfl).append h fun rest _ _ => ?_⟩
    obtain ⟨x, y, hxy, hs⟩ := hh rest
    rw [hxy]
    intro z hz
    cases hz
    exact hs

/-- A function with its name. -/
theorem fn_named {f : FnDecl} {abs : Bool} {n : Text} (h : FnC dbl false abs f) (hn : nameOk n = true) (i : Nat) :
    ∃ is r ts, Piece 0 0 Any (cFn dbl i (some n) f) is (.k .Function :: (refToks r ++ .string n :: ts)) ∧ Derives (.fn false abs r) ts f.erase := by
  obtain ⟨params, body, usev, rr⟩ := f
  obtain ⟨is, ts, hp, hd⟩ := fn_tail h i
  have hw := (piece_word (a := 0) hn).then hp (by decide)
  obtain ⟨js, hr⟩ := amp_piece rr hw fun rest => by
    have := nameOk_id hn
    cases n with
    | nil => cases this
    | cons c cs =>
      simp only [isIdentifier, Bool.and_eq_true] at this
      exact ⟨c, _, rfl, stops_id this.1.1 nofun⟩
  exact ⟨_, rr, ts, ((litA c!"function " [.k .Function] 0 0 (by decide) rfl).free hr).text (by cases body <;> rfl), hd⟩

theorem ec_function {f : FnDecl} (h : FnC dbl true false f) (sp : Span) : EClaim dbl (.mk (.function f) sp) := by
  intro i
  obtain ⟨params, body, usev, rr⟩ := f
  obtain ⟨is, ts, hp, hd⟩ := fn_tail h i
  obtain ⟨js, hr⟩ := amp_piece rr hp fun rest => by
    obtain ⟨y, hy⟩ := head_text hp
    exact ⟨_, y ++ rest, by rw [hy]; rfl, by decide⟩
  exact ⟨_, _, .plain ((((litA c!"function " [.k .Function] 0 0 (by decide) rfl).free hr).text (by cases body <;> rfl)).mono fun _ _ => trivial) ⟨_, _, rfl, rfl⟩ rfl
    (fun p => .e_closure hd) rfl rfl rfl⟩

end Pico
