import Verif.Lemmas.RtLeaf
/-!
# The printed form of operators
-/
namespace Pico

variable {dbl : Text → Text}

/-- The token of a binary operator as it is printed. -/
def opKw : Op → Kw
  | .Concat => .Dot | .Add => .Plus | .Sub => .Minus | .Mul => .Mul | .Div => .Div | .Pow => .Pow | .Mod => .Mod
  | .Or => .BoolOr | .And => .BoolAnd | .Identical => .IsIdentical | .NotIdentical => .IsNotIdentical
  | .Eq => .IsEqual | .Neq => .IsNotEqual | .Lt => .Lt | .Gt => .Gt | .Le => .IsSmallerOrEqual
  | .Ge => .IsGreaterOrEqual | .BitwiseAnd => .Ampersand | .BitwiseInclOr => .BwOr | .BitwiseExclOr => .BwXor
  | .Spaceship => .SpaceShip | .Sl => .Sl | .Sr => .Sr

theorem opKw_symbol (op : Op) : (op.text, opKw op) ∈ symbols := by cases op <;> decide

theorem opText_bin (op : Op) : op.text ∈ binTexts := by cases op <;> decide

theorem opText_dot {op : Op} (h : op.text = c!".") : op = .Concat := by
  cases op with
  | Concat => rfl
  | _ => exact absurd h (by decide)

theorem piece_op (op : Op) : Piece 0 0 (fun rest => (∀ c, rest.head? = some c → stops op.text c = true) ∧ rest ≠ []) (w op.text)
    [.lex (.sym op.text (opKw op))] [.k (opKw op)] := by
  have hb : ∀ d, braces (d + 0) [.lex (.sym op.text (opKw op))] = some (d + 0) := by cases op <;> exact fun _ => rfl
  have ha : (Lexeme.sym op.text (opKw op)).isArrow = false := by cases op <;> rfl
  refine (piece_lex (.sym op.text (opKw op)) rfl ha (opKw_symbol op) hb).mono fun rest hr => ⟨hr.1, ?_, fun _ => hr.2⟩
  intro h
  cases op <;> exact absurd h (by decide)

theorem headCls_lt {ld : Lead} {c : Char} (h : headCls ld c = true) : c ≠ '<' := by
  rintro rfl
  cases ld <;> exact absurd h (by simp only [headCls]; decide)

/-- An operator may follow every expression but for `.` behind a number. -/
theorem fo_op (op : Op) {ld : Lead} {c : Char} (r : Text) (hc : headCls ld c = true) {num : Bool} (hn : op = .Concat → num = false) :
    Fo num (op.text ++ c :: r) := by
  have hlt := headCls_lt hc
  cases op with
  | Concat => exact ⟨rfl, fun h => by rw [hn rfl] at h; cases h⟩
  | Lt =>
    refine ⟨?_, fun _ h => by cases h⟩
    simp [fol, Op.text, endsIdentifier, isIdChar, List.isPrefixOf, Ne.symm hlt, isBlank]
  | Sl =>
    refine ⟨?_, fun _ h => by cases h⟩
    simp [fol, Op.text, endsIdentifier, isIdChar, List.isPrefixOf, Ne.symm hlt, isBlank]
  | Le => exact ⟨rfl, fun _ h => by cases h⟩
  | Spaceship => exact ⟨rfl, fun _ h => by cases h⟩
  | _ => exact fo_cons (by decide)

theorem leftOk_grade {e : Expr} (h : leftOk e = true) : opGrade e = .tight ∨ opGrade e = .inst := by
  unfold leftOk at h
  simp only [Bool.or_eq_true, beq_iff_eq] at h
  unfold opGrade
  split
  · exact .inl rfl
  · rename_i hw
    rcases h with (h | h) | h
    · exact absurd h hw
    · exact .inl h
    · exact .inr h

theorem leftOk_safe {e : Expr} (h : leftOk e = true) (hn : e.isNumber = false) : (!(e.kind.bracketed || safeEnd e.kind)) = false := by
  obtain ⟨k, sp⟩ := e
  cases k with
  | _ => first | rfl | (cases hn; done) | (cases h; done)

theorem signOk_lead {e : Expr} (h : signOk e = true) : opLead e ≠ .sign := by
  unfold signOk at h
  simp only [Bool.or_eq_true, bne_iff_ne] at h
  unfold opLead
  split
  · exact nofun
  · exact h.resolve_left ‹_›

theorem op_level (op : Op) (h : op ≠ .Pow) : ∃ lv, infixLevel (opKw op) = some lv ∧ leftOp (opKw op) = some op ∧ 1 ≤ lv ∧ lv ≤ 14 := by
  cases op with
  | Pow => exact absurd rfl h
  | _ => exact ⟨_, rfl, rfl, by decide, by decide⟩

theorem ec_binary {op : Op} {l r : Expr} (hl : EClaim dbl l) (hr : EClaim dbl r) (h1 : leftOk l = true) (h2 : signOk r = true)
    (h3 : (op != .Concat || (!l.isNumber && (r.kind.bracketed || r.lead != .digit))) = true) (sp : Span) : EClaim dbl (.mk (.binary op l r) sp) := by
  intro i
  obtain ⟨is, ts, hl⟩ := hl i
  obtain ⟨js, us, hr⟩ := hr i
  obtain ⟨is', ts', ol, -⟩ := hl.operand
  obtain ⟨js', us', or, -⟩ := hr.operand
  have hcat : op = .Concat → l.isNumber = false ∧ opLead r ≠ .digit := by
    rintro rfl
    simp only [Bool.or_eq_true, bne_iff_ne, ne_eq, not_true_eq_false, false_or, Bool.and_eq_true, Bool.not_eq_true'] at h3
    refine ⟨h3.1, ?_⟩
    unfold opLead
    split
    · exact nofun
    · exact h3.2.resolve_left ‹_›
  refine ⟨is' ++ ([.lex (.sym op.text (opKw op))] ++ js'), ts' ++ ([.k (opKw op)] ++ us'), .plain ?_ ?_ ?_ ?_ rfl rfl rfl⟩
  · show Piece 0 0 (Fo true) (cParens false l (cExpr dbl i l) ⧺ w op.text ⧺ cParens false r (cExpr dbl i r)) _ _
    refine ol.pc.append ((piece_op op).append (or.pc.mono fun _ hr => hr.weak) ?_) ?_
    · intro rest _ ha
      obtain ⟨x, y, hxy, hc⟩ := or.st.head ha
      rw [hxy]
      refine ⟨fun c hcc => ?_, nofun⟩
      cases hcc
      exact stops_bin (opText_bin op) hc (signOk_lead h2) fun ho => (hcat (opText_dot ho)).2
    · intro rest _ ha
      obtain ⟨x, y, hxy, hc⟩ := or.st.head (show Apart false js' rest from by cases op <;> exact ha.2.2)
      rw [render_append, List.append_assoc, hxy]
      show Fo _ ((op.text ++ []) ++ _)
      rw [List.append_nil]
      exact fo_op op y hc fun ho => leftOk_safe h1 (hcat ho).1
  · exact ol.st.append
  · exact ol.nf
  · show ∃ s, Derives (.expr 0 s) (ts' ++ ([.k (opKw op)] ++ us')) (bare (.binary op l.erase r.erase))
    by_cases hp : op = .Pow
    · subst hp
      obtain ⟨s, hd⟩ := or.gr.right grade_loose (p := 14) (by omega)
      exact ⟨_, .e_pow (by omega) (ol.gr.left (leftOk_grade h1) (by omega)) (by omega) hd⟩
    · obtain ⟨lv, hv, ho, hlo, hhi⟩ := op_level op hp
      obtain ⟨s, hd⟩ := or.gr.right grade_loose (p := lv) (by omega)
      exact ⟨_, .e_left ho hv (by omega) (ol.gr.left (leftOk_grade h1) (by omega)) (by omega) hd⟩

/-- The token of a prefix operator. -/
def preKw : UnaryOp → Kw
  | .Positive => .Plus | .Negative => .Minus | .Not => .BoolNot | .PreInc => .Increment | .PreDec => .Decrement
  | .PostInc => .Increment | .PostDec => .Decrement | .BitwiseNot => .BwNot | .SilenceErrors => .Silence

theorem piece_pre (op : UnaryOp) (h : op.isPostfix = false) : Piece 0 0 (fun rest => ∀ c, rest.head? = some c → stops op.prefixText.1 c = true)
    (w op.prefixText.1) [.lex (.sym op.prefixText.1 (preKw op))] [.k (preKw op)] := by
  have hb : ∀ d, braces (d + 0) [.lex (.sym op.prefixText.1 (preKw op))] = some (d + 0) := by cases op <;> exact fun _ => rfl
  have ha : (Lexeme.sym op.prefixText.1 (preKw op)).isArrow = false := by cases op <;> rfl
  have ho : (op.prefixText.1, preKw op) ∈ symbols := by cases op <;> first | decide | cases h
  refine (piece_lex (.sym op.prefixText.1 (preKw op)) rfl ha ho hb).mono fun rest hr => ⟨hr, ?_, ?_⟩
  · intro h
    cases op <;> exact absurd h (by decide)
  · intro h
    cases op <;> exact absurd h (by decide)

theorem starts_sign (op : UnaryOp) (h : op.isPostfix = false) : Starts .sign [.lex (.sym op.prefixText.1 (preKw op))] := by
  refine ⟨_, _, rfl, _, _, rfl, ?_⟩
  cases op <;> first | decide | cases h

theorem pre_bin (op : UnaryOp) (h : op.isPostfix = false) : op.prefixText.1 ∈ binTexts ∧ op.prefixText.1 ≠ c!"." ∧ prefixOf (preKw op) = some op := by
  cases op <;> first | exact ⟨by decide, by decide, rfl⟩ | cases h

theorem sign_cls {ld : Lead} {c : Char} (hc : headCls ld c = true) {op : UnaryOp} (ho : op = .PreInc ∨ op = .PreDec) : stops op.prefixText.1 c = true := by
  rcases ho with rfl | rfl <;> exact solid_stops (by decide) c

/-- A prefix operator in front of an operand. -/
theorem prefix_piece {op : UnaryOp} {ld : Lead} {num : Bool} {cs : List Chunk} {is : List Item} {ts : List Token} (hp : op.isPostfix = false)
    (h : Piece 0 0 (Fo num) cs is ts) (hs : Starts ld is) (hl : ld ≠ .sign ∨ op = .PreInc ∨ op = .PreDec) :
    Piece 0 0 (Fo true) (w op.prefixText.1 ⧺ cs) ([.lex (.sym op.prefixText.1 (preKw op))] ++ is) ([.k (preKw op)] ++ ts) := by
  refine (piece_pre op hp).append (h.mono fun _ hr => hr.weak) fun rest _ ha => ?_
  obtain ⟨x, y, hxy, hc⟩ := hs.head ha
  rw [hxy]
  intro c hcc
  cases hcc
  rcases hl with hl | hl
  · exact stops_bin (pre_bin op hp).1 hc hl fun ho => absurd ho (pre_bin op hp).2.1
  · exact sign_cls hc hl

theorem unary_grade {op : UnaryOp} {e : Expr} {ts : List Token} (hp : op.isPostfix = false) (hg : Graded (opGrade e) ts e.erase)
    (hi : opGrade e ≠ .inst) : Graded (if op.isPostfix || e.kind.bracketed then .tight else e.grade) ([.k (preKw op)] ++ ts) (bare (.unary op e.erase)) := by
  have hk := (pre_bin op hp).2.2
  rw [hp, Bool.false_or]
  change Graded (opGrade e) _ _
  have hne := grade_loose (e := e)
  generalize opGrade e = g at hg hi hne ⊢
  cases g with
  | tight => exact fun p => .e_prefix hk (hg _)
  | inst => exact absurd rfl hi
  | opn => exact fun p => .e_prefix hk (hg _)
  | loose => exact absurd rfl hne

theorem chunkText_nil (cs : List Chunk) : chunkText (w [] ⧺ cs) = chunkText cs := by
  show (chunkText cs).map ([] ++ ·) = _
  cases chunkText cs <;> rfl

theorem isVar_opGrade {e : Expr} (h : e.isVar = true) : opGrade e = .tight := by
  unfold opGrade
  split
  · rfl
  · exact isVar_grade h

theorem ec_unary {op : UnaryOp} {e : Expr} (he : EClaim dbl e) (h : (match op with
    | .PreInc | .PreDec | .PostInc | .PostDec => e.isVar
    | _ => signOk e && (e.kind.bracketed || e.grade != .inst)) = true) (sp : Span) : EClaim dbl (.mk (.unary op e) sp) := by
  intro i
  obtain ⟨is, ts, he⟩ := he i
  have hpre : op.isPostfix = false → op.prefixText.2 = true → signOk e = true → (e.kind.bracketed || e.grade != .inst) = true →
      ∃ is ts, EC dbl i (.mk (.unary op e) sp) is ts := by
    intro hp h2 hs hi
    obtain ⟨is', ts', oc, -⟩ := he.operand
    have hi' : opGrade e ≠ .inst := by
      simp only [Bool.or_eq_true, bne_iff_ne] at hi
      unfold opGrade
      split
      · exact nofun
      · exact hi.resolve_left ‹_›
    refine ⟨_, _, .plain ((prefix_piece hp oc.pc oc.st (.inl (signOk_lead hs))).text ?_) ?_ ?_ (unary_grade hp oc.gr hi') rfl rfl rfl⟩
    · show chunkText (w op.prefixText.1 ⧺ (if op.prefixText.2 then cParens false e (cExpr dbl i e) else cExpr dbl i e) ⧺ cPostfix op) = _
      rw [h2, if_pos rfl, show cPostfix op = [] from by cases op <;> first | rfl | (cases hp; done)]
      exact congrArg chunkText (congrArg _ (List.append_nil _))
    · show Starts (if op.isPostfix then _ else _) _
      rw [hp]
      exact (starts_sign op hp).append
    · show leadFree (if op.isPostfix then _ else _) = true
      rw [hp]
      rfl
  have hinc : op = .PreInc ∨ op = .PreDec → e.isVar = true → ∃ is ts, EC dbl i (.mk (.unary op e) sp) is ts := by
    intro ho hv
    have hp : op.isPostfix = false := by rcases ho with rfl | rfl <;> rfl
    have h2 : op.prefixText.2 = false := by rcases ho with rfl | rfl <;> rfl
    have hg : Graded (opGrade e) ts e.erase := by
      rw [isVar_opGrade hv, ← isVar_grade hv]
      exact he.gr
    refine ⟨_, _, .plain ((prefix_piece hp he.pc he.st (.inr ho)).text ?_) ?_ ?_
      (unary_grade hp hg (by rw [isVar_opGrade hv]; exact nofun)) rfl rfl rfl⟩
    · show chunkText (w op.prefixText.1 ⧺ (if op.prefixText.2 then cParens false e (cExpr dbl i e) else cExpr dbl i e) ⧺ cPostfix op) = _
      rw [h2, show cPostfix op = [] by rcases ho with rfl | rfl <;> rfl, List.append_nil]
      rfl
    · show Starts (if op.isPostfix then _ else _) _
      rw [hp]
      exact (starts_sign op hp).append
    · show leadFree (if op.isPostfix then _ else _) = true
      rw [hp]
      rfl
  cases op with
  | PreInc => exact hinc (.inl rfl) h
  | PreDec => exact hinc (.inr rfl) h
  | PostInc =>
    refine ⟨_, _, .plain (((he.pc.then (litA c!"++" [.k .Increment] 0 0 (by decide) rfl) (by decide)).mono fun _ _ => trivial).text (chunkText_nil _))
      he.st.append he.nf (fun p => .e_postInc (he.var h)) rfl rfl rfl⟩
  | PostDec =>
    refine ⟨_, _, .plain (((he.pc.then (litA c!"--" [.k .Decrement] 0 0 (by decide) rfl) (by decide)).mono fun _ _ => trivial).text (chunkText_nil _))
      he.st.append he.nf (fun p => .e_postDec (he.var h)) rfl rfl rfl⟩
  | _ =>
    rw [Bool.and_eq_true] at h
    exact hpre rfl rfl h.1 h.2

end Pico
