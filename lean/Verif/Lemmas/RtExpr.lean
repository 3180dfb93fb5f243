import Verif.Lemmas.RtOp
/-!
# The printed form of the remaining expressions
-/
namespace Pico

variable {dbl : Text → Text}

/-- Behind `(` these items make no cast. -/
def Nocast (is : List Item) : Prop := ∀ rest, Apart false is rest → ¬ CastAhead (render is ++ rest)

theorem Nocast.append {is js : List Item} (h : Nocast is) : Nocast (is ++ js) := by
  intro rest ha
  rw [render_append, List.append_assoc]
  exact h _ (apart_left ha)

theorem EC.nc {i : Nat} {e : Expr} {is : List Item} {ts : List Token} (h : EC dbl i e is ts) : Nocast is := fun _ ha => h.nocast ha

theorem chunkText_end (cs : List Chunk) : chunkText (cs ⧺ []) = chunkText cs := by rw [List.append_nil]

/-! ### Lists of expressions -/

theorem exprs_piece (i : Nat) : ∀ es : List Expr, es ≠ [] → (∀ e ∈ es, EClaim dbl e) →
    ∃ is ts, Piece 0 0 (Fo true) (cArgs dbl i true es) is ts ∧ Nocast is ∧ Derives .exprs ts (eraseExprs es) ∧
      (es.all Expr.isVar = true → Derives .varl ts (eraseExprs es))
  | [], hne, _ => absurd rfl hne
  | [e], _, h => by
    obtain ⟨is, ts, he⟩ := h e (by simp) i
    obtain ⟨s, hs⟩ := he.any
    refine ⟨is, ts, he.pc'.text (chunkText_end _), he.nc, .exprs_one hs, fun hv => ?_⟩
    simp only [List.all_cons, Bool.and_eq_true] at hv
    exact .varl_one (he.var hv.1)
  | e :: e2 :: es, _, h => by
    obtain ⟨is, ts, he⟩ := h e (by simp) i
    obtain ⟨js, us, hp, -, hd, hv⟩ := exprs_piece i (e2 :: es) nofun fun x hx => h x (List.mem_cons_of_mem _ hx)
    obtain ⟨s, hs⟩ := he.any
    refine ⟨_, _, he.pc'.then ((litA c!", " [.k .Comma] 0 0 (by decide) rfl).free hp) (by decide), he.nc.append, .exprs_cons hs hd, fun hvs => ?_⟩
    rw [List.all_cons, Bool.and_eq_true] at hvs
    exact .varl_cons (he.var hvs.1) (hv hvs.2)

/-- An argument. -/
def ArgC (dbl : Text → Text) (e : Expr) : Prop := EClaim dbl e ∨ ∃ e' sp, e = .mk (.unpack e') sp ∧ EClaim dbl e'

theorem arg_piece {e : Expr} (h : ArgC dbl e) (i : Nat) : ∃ is ts, Piece 0 0 (Fo true) (cExpr dbl i e) is ts ∧ Nocast is ∧
    Derives .argl ts [e.erase] ∧ ∀ us es, Derives .argl us es → Derives .argl (ts ++ .k .Comma :: us) (e.erase :: es) := by
  rcases h with h | ⟨e', sp, rfl, h⟩
  · obtain ⟨is, ts, he⟩ := h i
    obtain ⟨s, hs⟩ := he.any
    exact ⟨is, ts, he.pc', he.nc, .argl_one hs, fun us es hd => .argl_cons hs hd⟩
  · obtain ⟨is, ts, he⟩ := h i
    obtain ⟨s, hs⟩ := he.any
    refine ⟨_, _, (litA c!"..." [.k .Ellipsis] 0 0 (by decide) rfl).free he.pc', ?_, .argl_unpack hs, fun us es hd => .argl_cons_unpack hs hd⟩
    intro rest _
    exact not_cast_head rfl

theorem argl_piece (i : Nat) : ∀ es : List Expr, es ≠ [] → (∀ e ∈ es, ArgC dbl e) →
    ∃ is ts, Piece 0 0 (Fo true) (cArgs dbl i true es) is ts ∧ Nocast is ∧ Derives .argl ts (eraseExprs es)
  | [], hne, _ => absurd rfl hne
  | [e], _, h => by
    obtain ⟨is, ts, hp, hn, hd, -⟩ := arg_piece (h e (by simp)) i
    exact ⟨is, ts, hp.text (chunkText_end _), hn, hd⟩
  | e :: e2 :: es, _, h => by
    obtain ⟨is, ts, he, hn, -, hd⟩ := arg_piece (h e (by simp)) i
    obtain ⟨js, us, hp, -, hd'⟩ := argl_piece i (e2 :: es) nofun fun x hx => h x (List.mem_cons_of_mem _ hx)
    exact ⟨_, _, he.then ((litA c!", " [.k .Comma] 0 0 (by decide) rfl).free hp) (by decide), hn.append, hd _ _ hd'⟩

theorem args_piece (i : Nat) (es : List Expr) (h : ∀ e ∈ es, ArgC dbl e) :
    ∃ is ts, Piece 0 0 Any (w c!"(" ⧺ cArgs dbl i true es ⧺ w c!")") is ts ∧ Derives .args ts (eraseExprs es) := by
  cases es with
  | nil => exact ⟨_, _, (litA c!"()" [.k .ParenthesesOpen, .k .ParenthesesClose] 0 0 (by decide) rfl).text (by rfl), .args_nil⟩
  | cons e es =>
    obtain ⟨is, ts, hp, hn, hd⟩ := argl_piece i (e :: es) nofun h
    refine ⟨_, _, (lit c!"(" [.k .ParenthesesOpen] 0 0 .opn (by decide) rfl).opn
      (hp.then (litA c!")" [.k .ParenthesesClose] 0 0 (by decide) rfl) (by decide)) hn.append, .args_some hd⟩

/-- An element of an array. -/
def ItemC (dbl : Text → Text) (x : Option Expr × Expr) : Prop := (∀ k, x.1 = some k → EClaim dbl k) ∧ EClaim dbl x.2

theorem item_piece {k : Option Expr} {e : Expr} (h : ItemC dbl (k, e)) (i : Nat) :
    ∃ is ts, Piece 0 0 (Fo true) ((match k with | some k => cExpr dbl i k ⧺ w c!" => " | none => []) ⧺ cExpr dbl i e) is ts ∧ Nocast is ∧
      Derives .items ts [(eraseOpt k, e.erase)] ∧
      ∀ us es, Derives .items us es → Derives .items (ts ++ .k .Comma :: us) ((eraseOpt k, e.erase) :: es) := by
  obtain ⟨js, us, he⟩ := h.2 i
  obtain ⟨s, hs⟩ := he.any
  cases k with
  | none => exact ⟨js, us, he.pc', he.nc, .items_one hs, fun us es hd => .items_cons hs hd⟩
  | some k =>
    obtain ⟨is, ts, hk⟩ := h.1 k rfl i
    obtain ⟨s', hs'⟩ := hk.any
    refine ⟨_, _, (hk.pc'.thenB ((litA c!" => " [.k .DoubleArrow] 0 0 (by decide) rfl).free he.pc') (by decide)).text (congrArg chunkText (List.append_assoc _ _ _)), hk.nc.append,
      .items_key hs' hs, fun us es hd => ?_⟩
    have := DerivesX.items_cons_key hs' hs hd
    simpa [eraseOpt] using this

theorem items_piece (i : Nat) : ∀ es : List (Option Expr × Expr), es ≠ [] → (∀ e ∈ es, ItemC dbl e) →
    ∃ is ts, Piece 0 0 (Fo true) (cItems dbl i true es) is ts ∧ Nocast is ∧ Derives .items ts (eraseItems es)
  | [], hne, _ => absurd rfl hne
  | [(k, e)], _, h => by
    obtain ⟨is, ts, hp, hn, hd, -⟩ := item_piece (h (k, e) (by simp)) i
    refine ⟨is, ts, hp.text ?_, hn, hd⟩
    cases k with
    | none => exact chunkText_end _
    | some k => exact congrArg chunkText (congrArg _ (List.append_nil _))
  | (k, e) :: (k2, e2) :: es, _, h => by
    obtain ⟨is, ts, he, hn, -, hd⟩ := item_piece (h (k, e) (by simp)) i
    obtain ⟨js, us, hp, -, hd'⟩ := items_piece i ((k2, e2) :: es) nofun fun x hx => h x (List.mem_cons_of_mem _ hx)
    refine ⟨_, _, (he.then ((litA c!", " [.k .Comma] 0 0 (by decide) rfl).free hp) (by decide)).text ?_, hn.append, hd _ _ hd'⟩
    refine congrArg chunkText ?_
    cases k with
    | none => cases k2 <;> rfl
    | some k =>
      show (cExpr dbl i k ⧺ w c!" => ") ⧺ cExpr dbl i e ⧺ cItems dbl i false ((k2, e2) :: es) =
        ((cExpr dbl i k ⧺ w c!" => ") ⧺ cExpr dbl i e) ⧺ w c!", " ⧺ cItems dbl i true ((k2, e2) :: es)
      rw [List.append_assoc (cExpr dbl i k ⧺ w c!" => ")]
      cases k2 <;> rfl

/-! ### Prefixes and brackets -/

theorem ec_clone {e : Expr} (h : EClaim dbl e) (sp : Span) : EClaim dbl (.mk (.clone e) sp) := by
  intro i
  obtain ⟨is, ts, he⟩ := h i
  obtain ⟨s, hs⟩ := he.any
  exact ⟨_, _, .plain ((litA c!"clone " [.k .Clone] 0 0 (by decide) rfl).free he.pc') ⟨_, _, rfl, rfl⟩ rfl (fun p => .e_clone hs) rfl rfl rfl⟩

theorem ec_include {t : IncludeTy} {e : Expr} (h : EClaim dbl e) (sp : Span) : EClaim dbl (.mk (.include t e) sp) := by
  intro i
  obtain ⟨is, ts, he⟩ := h i
  obtain ⟨s, hs⟩ := he.any
  have hp := (litA c!" " [] 0 0 (by decide) rfl).free he.pc'
  cases t with
  | Include => exact ⟨_, _, .plain ((lit c!"include" [.k .Include] 0 0 .word (by decide) rfl).wordThen hp rfl) ⟨_, _, rfl, rfl⟩ rfl
      (fun p => .e_include rfl hs) rfl rfl rfl⟩
  | IncludeOnce => exact ⟨_, _, .plain ((lit c!"include_once" [.k .IncludeOnce] 0 0 .word (by decide) rfl).wordThen hp rfl) ⟨_, _, rfl, rfl⟩ rfl
      (fun p => .e_include rfl hs) rfl rfl rfl⟩
  | Require => exact ⟨_, _, .plain ((lit c!"require" [.k .Require] 0 0 .word (by decide) rfl).wordThen hp rfl) ⟨_, _, rfl, rfl⟩ rfl
      (fun p => .e_include rfl hs) rfl rfl rfl⟩
  | RequireOnce => exact ⟨_, _, .plain ((lit c!"require_once" [.k .RequireOnce] 0 0 .word (by decide) rfl).wordThen hp rfl) ⟨_, _, rfl, rfl⟩ rfl
      (fun p => .e_include rfl hs) rfl rfl rfl⟩

theorem ec_isset {es : List Expr} (hne : es ≠ []) (h : ∀ e ∈ es, EClaim dbl e) (sp : Span) : EClaim dbl (.mk (.isset es) sp) := by
  intro i
  obtain ⟨is, ts, hp, hn, hd, -⟩ := exprs_piece i es hne h
  exact ⟨_, _, .plain (((lit c!"isset(" [.k .Isset, .k .ParenthesesOpen] 0 0 .opn (by decide) rfl).opn
      (hp.then (litA c!")" [.k .ParenthesesClose] 0 0 (by decide) rfl) (by decide)) hn.append).mono fun _ _ => trivial) ⟨_, _, rfl, rfl⟩ rfl
      (fun p => .e_isset hd) rfl rfl rfl⟩

theorem ec_empty {e : Expr} (h : EClaim dbl e) (sp : Span) : EClaim dbl (.mk (.empty e) sp) := by
  intro i
  obtain ⟨is, ts, he⟩ := h i
  obtain ⟨s, hs⟩ := he.any
  exact ⟨_, _, .plain (((lit c!"empty(" [.k .Empty, .k .ParenthesesOpen] 0 0 .opn (by decide) rfl).opn
      (he.pc'.then (litA c!")" [.k .ParenthesesClose] 0 0 (by decide) rfl) (by decide)) he.nc.append).mono fun _ _ => trivial) ⟨_, _, rfl, rfl⟩ rfl
      (fun p => .e_empty hs) rfl rfl rfl⟩

theorem ec_exit {e : Expr} (h : EClaim dbl e) (sp : Span) : EClaim dbl (.mk (.exit (some e)) sp) := by
  intro i
  obtain ⟨is, ts, he⟩ := h i
  obtain ⟨s, hs⟩ := he.any
  exact ⟨_, _, .plain (((lit c!"exit(" [.k .Exit, .k .ParenthesesOpen] 0 0 .opn (by decide) rfl).opn
      (he.pc'.then (litA c!")" [.k .ParenthesesClose] 0 0 (by decide) rfl) (by decide)) he.nc.append).mono fun _ _ => trivial) ⟨_, _, rfl, rfl⟩ rfl
      (fun p => .e_exitValue hs) rfl rfl rfl⟩

theorem ec_array {es : List (Option Expr × Expr)} (h : ∀ e ∈ es, ItemC dbl e) (sp : Span) : EClaim dbl (.mk (.array es) sp) := by
  intro i
  have key : ∃ is ts, Piece 0 0 Any (w c!"[" ⧺ cItems dbl i true es ⧺ w c!"]") (.lex (.sym c!"[" .SquareBracketOpen) :: is)
      (.k .SquareBracketOpen :: (ts ++ [.k .SquareBracketClose])) ∧ Derives .items ts (eraseItems es) := by
    cases es with
    | nil => exact ⟨_, [], (litA c!"[]" [.k .SquareBracketOpen, .k .SquareBracketClose] 0 0 (by decide) rfl).text (by rfl), .items_nil⟩
    | cons e es =>
      obtain ⟨is, ts, hp, -, hd⟩ := items_piece i (e :: es) nofun h
      exact ⟨_, ts, (litA c!"[" [.k .SquareBracketOpen] 0 0 (by decide) rfl).free
        (hp.then (litA c!"]" [.k .SquareBracketClose] 0 0 (by decide) rfl) (by decide)), hd⟩
  obtain ⟨is, ts, hp, hd⟩ := key
  refine ⟨_, _, .ofVar (hp.mono fun _ _ => trivial) ⟨_, _, rfl, .inr (.inr (.inr (.inr (.inl rfl))))⟩ rfl rfl rfl ?_ nofun nofun⟩
  intro us e' hd'
  have := DerivesX.v_bracket hd hd'
  simpa using this

/-! ### Operators that are no symbols, assignments -/

/-- What stands behind `new` and `instanceof`. -/
def CrefC (dbl : Text → Text) (e : Expr) : Prop := ∀ i, ∃ is ts, Piece 0 0 (Fo false) (cExpr dbl i e) is ts ∧ Derives .cref ts e.erase

theorem crefOk_isVar {e : Expr} (h : crefOk e = true) : safeEnd e.kind = true := by
  obtain ⟨k, sp⟩ := e
  cases k with
  | _ => first | rfl | (cases h; done)

theorem cref_claim {e : Expr} (h : classRef e = true ∨ EClaim dbl e ∧ crefOk e = true) : CrefC dbl e := by
  intro i
  rcases h with h | ⟨h, hc⟩
  · obtain ⟨k, sp⟩ := e
    cases k with
    | path p =>
      obtain ⟨is, ts, hp, hn, -⟩ := piece_class h
      exact ⟨is, ts, hp, .c_name hn⟩
    | _ => cases h
  · obtain ⟨is, ts, he⟩ := h i
    refine ⟨is, ts, ?_, he.cr hc⟩
    have := he.pc
    rw [crefOk_isVar hc] at this
    exact this

theorem isInstance_erase {e : Expr} (h : e.grade = .tight) : isInstance e.erase = false := by
  obtain ⟨k, sp⟩ := e
  cases k with
  | instanceOf l r => cases h
  | _ => rfl

theorem ec_instanceOf {l r : Expr} (hl : EClaim dbl l) (hg : l.grade = .tight) (hr : CrefC dbl r) (sp : Span) :
    EClaim dbl (.mk (.instanceOf l r) sp) := by
  intro i
  obtain ⟨is, ts, hl⟩ := hl i
  obtain ⟨js, us, hp, hd⟩ := hr i
  have hgr := hl.gr
  rw [hg] at hgr
  exact ⟨_, _, .plain (hl.pc'.thenB ((litA c!" instanceof " [.k .InstanceOf] 0 0 (by decide) rfl).free hp) (by decide)) hl.st.append hl.nf
    (fun p hp => .e_instance hp (hgr 16) (by omega) (isInstance_erase hg) hd) rfl rfl rfl⟩

theorem ec_new {t : Expr} {args : List Expr} (ht : CrefC dbl t) (ha : ∀ e ∈ args, ArgC dbl e) (sp : Span) : EClaim dbl (.mk (.new t args) sp) := by
  intro i
  obtain ⟨is, ts, hp, hd⟩ := ht i
  obtain ⟨js, us, hp', hd'⟩ := args_piece i args ha
  exact ⟨_, _, .plain (((litA c!"new " [.k .New] 0 0 (by decide) rfl).free (hp.then hp' (by decide))).mono fun _ _ => trivial) ⟨_, _, rfl, rfl⟩ rfl
    (fun p => DerivesX.e_newArgs (ts := ts) hd hd') rfl rfl rfl⟩

theorem ec_ternary {c e : Expr} {t : Option Expr} (hc : EClaim dbl c) (hl : leftOk c = true) (ht : ∀ t', t = some t' → EClaim dbl t')
    (he : EClaim dbl e) (sp : Span) : EClaim dbl (.mk (.ternary c t e) sp) := by
  intro i
  obtain ⟨is, ts, hc⟩ := hc i
  obtain ⟨js, us, he⟩ := he i
  obtain ⟨is', ts', oc, -⟩ := hc.operand
  obtain ⟨js', us', oe, -⟩ := he.operand
  obtain ⟨se, hse⟩ := oe.gr.right grade_loose (p := 4) (by omega)
  have hcol := (lit c!":" [.k .Colon] 0 0 (.sym c!":") (by decide) rfl).sym (oe.pc.mono fun _ h => (h : Fo true _).weak) oe.st (by decide)
  have hq := lit c!"?" [.k .QuestionMark] 0 0 (.sym c!"?") (by decide) rfl
  cases t with
  | none =>
    refine ⟨_, _, .plain ((oc.pc.then (hq.append hcol fun rest _ _ => ?_) (by decide)).text rfl) oc.st.append oc.nf ?_ rfl rfl rfl⟩
    · intro x hx
      cases hx
      decide
    · exact ⟨_, .e_elvis (by omega) (oc.gr.left (leftOk_grade hl) (by omega)) (by omega) hse⟩
  | some t =>
    obtain ⟨ks, vs, ht⟩ := ht t rfl i
    obtain ⟨ks', vs', ot, -⟩ := ht.operand
    obtain ⟨st, hst⟩ := ot.gr.right grade_loose (p := 4) (by omega)
    refine ⟨_, _, .plain (oc.pc.then (hq.sym (ot.pc.then hcol (by decide)) ot.st.append (by decide)) (by decide)) oc.st.append oc.nf ?_ rfl rfl rfl⟩
    exact ⟨_, .e_ternary (by omega) (oc.gr.left (leftOk_grade hl) (by omega)) (by omega) hst hse⟩

theorem ec_assign {l r : Expr} (hl : EClaim dbl l) (hv : l.isVar = true) (hr : EClaim dbl r) (sp : Span) : EClaim dbl (.mk (.assign l r) sp) := by
  intro i
  obtain ⟨is, ts, hl⟩ := hl i
  obtain ⟨js, us, hr⟩ := hr i
  obtain ⟨s, hs⟩ := hr.any
  exact ⟨_, _, .plain (hl.pc'.then ((lit c!"=" [.k .Equal] 0 0 (.sym c!"=") (by decide) rfl).sym hr.pc' hr.st (by decide)) (by decide)) hl.st.append hl.nf
    (fun p => .e_assign (hl.var hv) hs) rfl rfl rfl⟩

theorem ec_assignRef {l r : Expr} (hl : EClaim dbl l) (hv : l.isVar = true) (hr : EClaim dbl r) (sp : Span) : EClaim dbl (.mk (.assignRef l r) sp) := by
  intro i
  obtain ⟨is, ts, hl⟩ := hl i
  obtain ⟨js, us, hr⟩ := hr i
  obtain ⟨s, hs⟩ := hr.any
  refine ⟨_, _, .plain (hl.pc'.then ((lit c!"=&" [.k .Equal, .k .Ampersand] 0 0 (.sym c!"&") (by decide) rfl).append hr.pc' fun rest _ ha => ?_) (by decide))
    hl.st.append hl.nf (fun p => .e_assignRef (hl.var hv) hs) rfl rfl rfl⟩
  obtain ⟨x, y, hxy, hc⟩ := hr.st.head ha
  rw [hxy]
  intro z hz
  cases hz
  exact stops_amp hc

theorem list_text (cs : List Chunk) : chunkText ((w c!"list(" ⧺ [] ⧺ w c!")") ⧺ cs) = chunkText (w c!"list()" ⧺ cs) := by
  simp only [w, List.cons_append, List.nil_append, chunkText, Option.map_map]
  cases chunkText cs <;> rfl

theorem ec_list {its : List (Option Expr × Expr)} {r : Expr} (hl : ∀ e ∈ its, ItemC dbl e) (hr : EClaim dbl r) (sp sp' : Span) :
    EClaim dbl (.mk (.assign (.mk (.list its) sp') r) sp) := by
  intro i
  obtain ⟨js, us, hr⟩ := hr i
  obtain ⟨s, hs⟩ := hr.any
  have heq := (lit c!"=" [.k .Equal] 0 0 (.sym c!"=") (by decide) rfl).sym hr.pc' hr.st (by decide)
  cases its with
  | nil =>
    exact ⟨_, _, .plain (((litA c!"list()" [.k .List, .k .ParenthesesOpen, .k .ParenthesesClose] 0 0 (by decide) rfl).free heq).text
      (list_text _))
      ⟨_, _, rfl, rfl⟩ rfl (fun p => .e_list .items_nil hs) rfl rfl rfl⟩
  | cons e es =>
    obtain ⟨is, ts, hp, hn, hd⟩ := items_piece i (e :: es) nofun hl
    refine ⟨_, _, .plain (((lit c!"list(" [.k .List, .k .ParenthesesOpen] 0 0 .opn (by decide) rfl).opn
      (hp.then ((litA c!")" [.k .ParenthesesClose] 0 0 (by decide) rfl).free heq) (by decide)) hn.append).text ?_)
      ⟨_, _, rfl, rfl⟩ rfl (fun p => .e_list hd hs) rfl rfl rfl⟩
    refine congrArg chunkText ?_
    show (w c!"list(" ⧺ cItems dbl i true (e :: es) ⧺ w c!")") ⧺ w c!"=" ⧺ cExpr dbl i r = _
    rw [List.append_assoc, List.append_assoc]
    rfl

theorem ec_listRef {its : List (Option Expr × Expr)} {r : Expr} (hl : ∀ e ∈ its, ItemC dbl e) (hr : EClaim dbl r) (sp sp' : Span) :
    EClaim dbl (.mk (.assignRef (.mk (.list its) sp') r) sp) := by
  intro i
  obtain ⟨js, us, hr⟩ := hr i
  obtain ⟨s, hs⟩ := hr.any
  have heq := (lit c!"=&" [.k .Equal, .k .Ampersand] 0 0 (.sym c!"&") (by decide) rfl).append hr.pc' fun rest _ ha => (by
    obtain ⟨x, y, hxy, hx⟩ := hr.st.head ha
    rw [hxy]
    intro z hz
    cases hz
    exact stops_amp hx)
  cases its with
  | nil =>
    exact ⟨_, _, .plain (((litA c!"list()" [.k .List, .k .ParenthesesOpen, .k .ParenthesesClose] 0 0 (by decide) rfl).free heq).text
      (list_text _))
      ⟨_, _, rfl, rfl⟩ rfl (fun p => .e_listRef .items_nil hs) rfl rfl rfl⟩
  | cons e es =>
    obtain ⟨is, ts, hp, hn, hd⟩ := items_piece i (e :: es) nofun hl
    refine ⟨_, _, .plain (((lit c!"list(" [.k .List, .k .ParenthesesOpen] 0 0 .opn (by decide) rfl).opn
      (hp.then ((litA c!")" [.k .ParenthesesClose] 0 0 (by decide) rfl).free heq) (by decide)) hn.append).text ?_)
      ⟨_, _, rfl, rfl⟩ rfl (fun p => .e_listRef hd hs) rfl rfl rfl⟩
    refine congrArg chunkText ?_
    show (w c!"list(" ⧺ cItems dbl i true (e :: es) ⧺ w c!")") ⧺ w c!"=&" ⧺ cExpr dbl i r = _
    rw [List.append_assoc, List.append_assoc]
    rfl

theorem chunk_merge (a : List Chunk) (s t : Text) (b : List Chunk) : chunkText (a ⧺ w s ⧺ w t ⧺ b) = chunkText (a ⧺ w (s ++ t) ⧺ b) := by
  have : chunkText (w s ⧺ w t ⧺ b) = chunkText (w (s ++ t) ⧺ b) := by
    simp only [w, List.cons_append, List.nil_append, chunkText, Option.map_map]
    cases chunkText b <;> simp
  rw [chunkText_append a, chunkText_append a, this]

theorem ec_compound {l r : Expr} {op : Op} (hl : EClaim dbl l) (hv : l.isVar = true) (ho : (compoundKw op).isSome = true) (hr : EClaim dbl r) (sp : Span) :
    EClaim dbl (.mk (.compoundAssign l op r) sp) := by
  intro i
  obtain ⟨is, ts, hl⟩ := hl i
  obtain ⟨js, us, hr⟩ := hr i
  obtain ⟨s, hs⟩ := hr.any
  have key : ∀ (x : Char) (t : Text) (k : Kw), folChar x = true ∨ (x = '.' ∧ t = c!"=") ∨ (x = '<' ∧ t = c!"<=") → litCheck (x :: t) 0 0 .any = true →
      toks false (litItems (x :: t)) = [.k k] → compoundOf k = some op → op.text ++ c!"=" = x :: t → ∃ is ts, EC dbl i (.mk (.compoundAssign l op r) sp) is ts := by
    intro x t k hx hc ht hk htx
    have hp := (litA (x :: t) [.k k] 0 0 hc ht).free hr.pc'
    have hall : Piece 0 0 (Fo true) (cExpr dbl i l ⧺ w (x :: t) ⧺ cExpr dbl i r) (is ++ (litItems (x :: t) ++ js)) (ts ++ ([.k k] ++ us)) := by
      rcases hx with hx | ⟨rfl, rfl⟩ | ⟨rfl, rfl⟩
      · exact hl.pc.then hp hx
      · refine hl.pc.append hp fun rest _ _ => ?_
        rw [isVar_safe hv]
        exact ⟨rfl, nofun⟩
      · refine hl.pc.append hp fun rest _ _ => ?_
        exact ⟨rfl, fun _ h => by cases h⟩
    refine ⟨_, _, .plain (hall.text ?_) hl.st.append hl.nf (fun p => .e_compound hk (hl.var hv) hs) rfl rfl rfl⟩
    show chunkText (cExpr dbl i l ⧺ w op.text ⧺ w c!"=" ⧺ cExpr dbl i r) = _
    rw [← htx]
    exact chunk_merge _ _ _ _
  cases op with
  | Add => exact key '+' c!"=" .PlusEqual (.inl (by decide)) (by decide) rfl rfl rfl
  | Sub => exact key '-' c!"=" .MinusEqual (.inl (by decide)) (by decide) rfl rfl rfl
  | Mul => exact key '*' c!"=" .MulEqual (.inl (by decide)) (by decide) rfl rfl rfl
  | Div => exact key '/' c!"=" .DivEqual (.inl (by decide)) (by decide) rfl rfl rfl
  | Concat => exact key '.' c!"=" .ConcatEqual (.inr (.inl ⟨rfl, rfl⟩)) (by decide) rfl rfl rfl
  | Mod => exact key '%' c!"=" .ModEqual (.inl (by decide)) (by decide) rfl rfl rfl
  | BitwiseExclOr => exact key '^' c!"=" .XorEqual (.inl (by decide)) (by decide) rfl rfl rfl
  | Sl => exact key '<' c!"<=" .SlEqual (.inr (.inr ⟨rfl, rfl⟩)) (by decide) rfl rfl rfl
  | Sr => exact key '>' c!">=" .SrEqual (.inl (by decide)) (by decide) rfl rfl rfl
  | _ => cases ho

theorem piece_cast {t : Text} {k : Kw} (h : (t, k) ∈ castWords) : Piece 0 0 Any (w (c!"(" ++ t ++ c!")")) [.lex (.cast [] t [] k)] [.k k] := by
  refine (piece_lex (.cast [] t [] k) (by simp [Lexeme.text]) rfl ⟨nofun, nofun, h⟩ fun _ => rfl).mono fun _ _ => trivial

theorem ec_cast {t : Ty} {e : Expr} (ht : (castKw t).isSome = true) (he : EClaim dbl e) (sp : Span) : EClaim dbl (.mk (.cast t e) sp) := by
  intro i
  obtain ⟨is, ts, he⟩ := he i
  obtain ⟨is', hp, -, hd⟩ := he.paren
  have hv := hd [] _ (.a_nil _ _)
  rw [List.append_nil] at hv
  have key : ∀ (s : Text) (k : Kw), cCastTy t = w s → (s, k) ∈ castWords → castOf k = some t → ∃ is ts, EC dbl i (.mk (.cast t e) sp) is ts := by
    intro s k h1 h2 h3
    refine ⟨_, _, .plain ((((piece_cast h2).free hp).mono fun _ _ => trivial).text ?_) ⟨_, _, rfl, .inr (.inr (.inl ⟨_, _, _, _, rfl⟩))⟩ rfl
      (fun p => .e_cast h3 (.e_var hv)) rfl rfl rfl⟩
    show chunkText (w c!"(" ⧺ cCastTy t ⧺ w c!")(" ⧺ cExpr dbl i e ⧺ w c!")") = _
    rw [h1]
    simp only [w, List.cons_append, List.nil_append, chunkText, Option.map_map]
    cases chunkText (cExpr dbl i e ⧺ [Chunk.text c!")"]) <;> simp
  cases t with
  | Int => exact key c!"int" .CastInt rfl (by decide) rfl
  | Double => exact key c!"double" .CastDouble rfl (by decide) rfl
  | String => exact key c!"string" .CastString rfl (by decide) rfl
  | Array => exact key c!"array" .CastArray rfl (by decide) rfl
  | Bool => exact key c!"bool" .CastBool rfl (by decide) rfl
  | Object p =>
    cases p with
    | none => exact key c!"object" .CastObject rfl (by decide) rfl
    | some p => cases ht
  | _ => cases ht

theorem piece_yield : Piece 0 0 (fun rest => ¬ c!"from" <+: rest.dropWhile isBlank) (w c!"yield ")
    [.lex (.word c!"yield"), .gap c!" "] [.k .Yield] := by
  refine ⟨rfl, rfl, rfl, fun _ => rfl, fun rest hr => ⟨⟨by decide, by decide⟩, ⟨rfl, fun _ => ⟨fun _ => ?_, nofun⟩⟩, blankB_iff (by decide), trivial⟩, rfl⟩
  rintro ⟨b, r, he, hb⟩
  have hd : (c!" " ++ rest).dropWhile isBlank = rest.dropWhile isBlank := rfl
  rw [show render [Item.gap c!" "] ++ rest = c!" " ++ rest from rfl] at he
  rw [← hd, he, List.append_assoc, dropWhile_all_append hb.all] at hr
  exact hr ⟨r, rfl⟩

theorem headCls_blank {ld : Lead} {c : Char} (h : headCls ld c = true) : isBlank c = false := by
  cases hb : isBlank c with
  | false => rfl
  | true =>
    simp only [isBlank, Bool.or_eq_true, beq_iff_eq] at hb
    rcases hb with ((rfl | rfl) | rfl) | rfl <;> cases ld <;> exact absurd h (by simp only [headCls]; decide)

theorem ec_yield {e : Option Expr} (he : ∀ e', e = some e' → EClaim dbl e') (hf : (match e with | some e => noFromLead e.lead | none => true) = true)
    (sp : Span) : EClaim dbl (.mk (.yield e) sp) := by
  intro i
  cases e with
  | none =>
    refine ⟨_, _, .plain ((piece_yield.mono fun rest hr => ?_).text (chunkText_end _)) ⟨_, _, rfl, rfl⟩ rfl (fun p => .e_yield) rfl rfl rfl⟩
    have := hr.1
    unfold fol at this
    simp only [Bool.and_eq_true, Bool.not_eq_true', ← Bool.not_eq_true, List.isPrefixOf_iff_prefix] at this
    exact this.2
  | some e =>
    obtain ⟨is, ts, he⟩ := he e rfl i
    obtain ⟨s, hs⟩ := he.any
    refine ⟨_, _, .plain (piece_yield.append he.pc' fun rest _ ha => ?_) ⟨_, _, rfl, rfl⟩ rfl (fun p => .e_yieldValue hs) rfl rfl rfl⟩
    obtain ⟨x, y, hxy, hc⟩ := he.st.head ha
    have := he.st.noFrom hf ha
    rw [hxy] at this ⊢
    rwa [List.dropWhile_cons_of_neg (by simp [headCls_blank hc])]

end Pico
