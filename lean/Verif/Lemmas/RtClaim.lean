import Verif.Lemmas.RtName
import Verif.Spec.Erase
/-!
# What is shown of every printed expression
-/
namespace Pico

/-- The printed form does not end in a number (nor in an expression that may end in one; the last four cases do not
occur as operands). -/
def safeEnd : ExprK → Bool
  | .path _ => true
  | .const _ => true
  | .str _ => true
  | .array _ => true
  | .var _ => true
  | .isset _ => true
  | .empty _ => true
  | .exit _ => true
  | .arrayIdx _ _ => true
  | .objMember _ _ => true
  | .staticMember _ _ => true
  | .call _ _ => true
  | .new _ _ => true
  | .cast _ _ => true
  | .function _ => true
  | .instanceOf _ _ => true
  | .binStr _ => true
  | .reference _ => true
  | .unpack _ => true
  | .list _ => true
  | _ => false

/-- The tokens are an expression of the given grade. -/
def Graded : Grade → List Token → Expr → Prop
  | .tight, ts, e => ∀ p, Derives (.expr p 17) ts e
  | .inst, ts, e => ∀ p, p < 16 → Derives (.expr p 17) ts e
  | .opn, ts, e => ∀ p, Derives (.expr p 0) ts e
  | .loose, ts, e => ∃ s, Derives (.expr 0 s) ts e

theorem Graded.any {g : Grade} {ts : List Token} {e : Expr} (h : Graded g ts e) : ∃ s, Derives (.expr 0 s) ts e := by
  cases g with
  | tight => exact ⟨_, h 0⟩
  | inst => exact ⟨_, h 0 (by omega)⟩
  | opn => exact ⟨_, h 0⟩
  | loose => exact h

theorem Graded.left {g : Grade} {ts : List Token} {e : Expr} (h : Graded g ts e) (hg : g = .tight ∨ g = .inst) {p : Nat} (hp : p < 16) :
    Derives (.expr p 17) ts e := by
  rcases hg with rfl | rfl
  · exact h p
  · exact h p hp

theorem Graded.right {g : Grade} {ts : List Token} {e : Expr} (h : Graded g ts e) (hg : g ≠ .loose) {p : Nat} (hp : p < 16) :
    ∃ s, Derives (.expr p s) ts e := by
  cases g with
  | tight => exact ⟨_, h p⟩
  | inst => exact ⟨_, h p hp⟩
  | opn => exact ⟨_, h p⟩
  | loose => exact absurd rfl hg

section
variable (dbl : Text → Text)

/-- The printed form `cExpr dbl i e` consists of the items `is` with the tokens `ts`, which mean `e`. -/
structure EC (i : Nat) (e : Expr) (is : List Item) (ts : List Token) : Prop where
  pc : Piece 0 0 (Fo (!safeEnd e.kind)) (cExpr dbl i e) is ts
  st : Starts e.lead is
  nf : leadFree e.lead = true
  gr : Graded e.grade ts e.erase
  vr : e.isVar = true → ∀ us e', Derives (.apps false e.erase) us e' → Derives .var (ts ++ us) e'
  cv : e.isVarName = true → ∀ us e', Derives (.apps true e.erase) us e' → Derives .cref (ts ++ us) e'
  cr : crefOk e = true → Derives .cref ts e.erase
  sc : e.isClassConst = true → ∀ as es us e', Derives .args as es →
    Derives (.apps false (bare (.call e.erase es))) us e' → Derives .var (ts ++ (as ++ us)) e'

/-- For every indentation. -/
def EClaim (e : Expr) : Prop := ∀ i, ∃ is ts, EC dbl i e is ts

variable {dbl}

theorem isVarName_isVar {e : Expr} (h : e.isVarName = true) : e.isVar = true := by
  obtain ⟨k, sp⟩ := e
  cases k with
  | var v => cases v with
    | name n => rfl
    | fetch e => cases h
  | _ => cases h

/-- Expressions that are neither variables nor class constants. -/
theorem EC.plain {i : Nat} {e : Expr} {is : List Item} {ts : List Token} (pc : Piece 0 0 (Fo (!safeEnd e.kind)) (cExpr dbl i e) is ts)
    (st : Starts e.lead is) (nf : leadFree e.lead = true) (gr : Graded e.grade ts e.erase)
    (hv : e.isVar = false) (hr : crefOk e = false) (hc : e.isClassConst = false) : EC dbl i e is ts where
  pc := pc
  st := st
  nf := nf
  gr := gr
  vr h := by rw [hv] at h; cases h
  cv h := by rw [isVarName_isVar h] at hv; cases hv
  cr h := by rw [hr] at h; cases h
  sc h := by rw [hc] at h; cases h

/-- Variables. -/
theorem EC.ofVar {i : Nat} {e : Expr} {is : List Item} {ts : List Token} (pc : Piece 0 0 (Fo (!safeEnd e.kind)) (cExpr dbl i e) is ts)
    (st : Starts e.lead is) (nf : leadFree e.lead = true) (hg : e.grade = .tight) (hc : e.isClassConst = false)
    (vr : ∀ us e', Derives (.apps false e.erase) us e' → Derives .var (ts ++ us) e')
    (cv : e.isVarName = true → ∀ us e', Derives (.apps true e.erase) us e' → Derives .cref (ts ++ us) e')
    (cr : crefOk e = true → Derives .cref ts e.erase) : EC dbl i e is ts where
  pc := pc
  st := st
  nf := nf
  gr := by
    rw [hg]
    intro p
    have := vr [] _ (.a_nil _ _)
    rw [List.append_nil] at this
    exact .e_var this
  vr _ := vr
  cv := cv
  cr := cr
  sc h := by rw [hc] at h; cases h

theorem EC.any {i : Nat} {e : Expr} {is : List Item} {ts : List Token} (h : EC dbl i e is ts) : ∃ s, Derives (.expr 0 s) ts e.erase := h.gr.any

theorem EC.nocast {i : Nat} {e : Expr} {is : List Item} {ts : List Token} (h : EC dbl i e is ts) {rest : Text} (ha : Apart false is rest) :
    ¬ CastAhead (render is ++ rest) := h.st.nocast h.nf ha

/-- The piece, if what follows is certainly no dot. -/
theorem EC.pc' {i : Nat} {e : Expr} {is : List Item} {ts : List Token} (h : EC dbl i e is ts) : Piece 0 0 (Fo true) (cExpr dbl i e) is ts :=
  h.pc.mono fun _ hr => hr.weak

/-- A variable. -/
theorem EC.var {i : Nat} {e : Expr} {is : List Item} {ts : List Token} (h : EC dbl i e is ts) (hv : e.isVar = true) : Derives .var ts e.erase := by
  have := h.vr hv [] _ (.a_nil _ _)
  rwa [List.append_nil] at this

/-! ### Parentheses -/

section
variable {a b c : Nat} {P Q : Text → Prop} {cs cs' : List Chunk} {is js : List Item} {ts us : List Token}

/-- Behind an opening parenthesis. -/
theorem Piece.opn (h : Piece a b (LitEnd.Holds .opn) cs is ts) (h' : Piece b c Q cs' js us)
    (hx : ∀ rest, Apart false js rest → ¬ CastAhead (render js ++ rest)) : Piece a c Q (cs ⧺ cs') (is ++ js) (ts ++ us) :=
  h.append h' fun rest _ ha => hx rest ha

/-- Behind a sign behind which any expression may stand. -/
theorem Piece.sym {s : Text} (h : Piece a b (LitEnd.Holds (.sym s)) cs is ts) (h' : Piece b c Q cs' js us) {ld : Lead} (hl : Starts ld js)
    (hx : s ∈ openTexts) : Piece a c Q (cs ⧺ cs') (is ++ js) (ts ++ us) :=
  h.append h' fun rest _ ha => by
    obtain ⟨x, r, hr, hc⟩ := hl.head ha
    intro y hy
    rw [hr] at hy
    cases hy
    exact stops_open hx hc

/-- Behind an operator. -/
theorem Piece.op {s : Text} (h : Piece a b (LitEnd.Holds (.sym s)) cs is ts) (h' : Piece b c Q cs' js us) {ld : Lead} (hl : Starts ld js)
    (hx : s ∈ binTexts) (hs : ld ≠ .sign) (hd : s = c!"." → ld ≠ .digit) : Piece a c Q (cs ⧺ cs') (is ++ js) (ts ++ us) :=
  h.append h' fun rest _ ha => by
    obtain ⟨x, r, hr, hc⟩ := hl.head ha
    intro y hy
    rw [hr] at hy
    cases hy
    exact stops_bin hx hc hs hd

/-- Two fixed texts. -/
theorem Piece.wordThen {x : Char} {t : Text} (h : Piece a b (LitEnd.Holds .word) cs is ts) (h' : Piece b c Q (.text (x :: t) :: cs') js us)
    (hx : endsIdentifier [x] = true) : Piece a c Q (cs ⧺ .text (x :: t) :: cs') (is ++ js) (ts ++ us) := by
  obtain ⟨r, hr⟩ := head_text h'
  refine h.append h' fun rest _ _ => ?_
  rw [hr]
  exact hx

end

theorem bracketed_wrapped (k : ExprK) : k.bracketed = k.wrapped := by cases k <;> rfl

theorem wrapped_text (e : Expr) (curly : Bool) (body : List Chunk) (h : e.kind.bracketed = true) :
    cParens curly e body = w (if curly then c!"{" else c!"(") ⧺ body ⧺ w (if curly then c!"}" else c!")") := by
  rw [bracketed_wrapped] at h
  unfold cParens cnd
  rw [h]
  rfl

theorem unwrapped_text (e : Expr) (curly : Bool) (body : List Chunk) (h : e.kind.bracketed = false) :
    cParens curly e body = body := by
  rw [bracketed_wrapped] at h
  unfold cParens cnd
  rw [h]
  exact List.append_nil _

/-- `( e )`. -/
theorem EC.paren {i : Nat} {e : Expr} {is : List Item} {ts : List Token} (h : EC dbl i e is ts) :
    ∃ is', Piece 0 0 Any (w c!"(" ⧺ cExpr dbl i e ⧺ w c!")") is' (.k .ParenthesesOpen :: (ts ++ [.k .ParenthesesClose])) ∧ Starts .other is' ∧
      ∀ us e', Derives (.apps false e.erase) us e' → Derives .var ((.k .ParenthesesOpen :: (ts ++ [.k .ParenthesesClose])) ++ us) e' := by
  refine ⟨_, (lit c!"(" [.k .ParenthesesOpen] 0 0 .opn (by decide) rfl).opn
    (h.pc'.then (litA c!")" [.k .ParenthesesClose] 0 0 (by decide) rfl) (by decide)) ?_, ?_, ?_⟩
  · intro rest ha
    rw [render_append, List.append_assoc]
    exact h.nocast (apart_left ha)
  · exact ⟨_, _, rfl, .inr (.inr (.inr (.inl rfl)))⟩
  · intro us e' hd
    obtain ⟨s, hs⟩ := h.any
    have := DerivesX.v_paren hs hd
    simpa using this

/-- An operand: in parentheses where the printer puts them. -/
structure OC (ld : Lead) (num : Bool) (g : Grade) (e : Expr) (cs : List Chunk) (is : List Item) (ts : List Token) : Prop where
  pc : Piece 0 0 (Fo num) cs is ts
  st : Starts ld is
  nf : leadFree ld = true
  gr : Graded g ts e.erase

def opLead (e : Expr) : Lead := if e.kind.bracketed then .other else e.lead
def opGrade (e : Expr) : Grade := if e.kind.bracketed then .tight else e.grade

theorem EC.operand {i : Nat} {e : Expr} {is : List Item} {ts : List Token} (h : EC dbl i e is ts) :
    ∃ is' ts', OC (opLead e) (!(e.kind.bracketed || safeEnd e.kind)) (opGrade e) e (cParens false e (cExpr dbl i e)) is' ts' ∧
      (baseOk e = true → ∀ us e', Derives (.apps false e.erase) us e' → Derives .var (ts' ++ us) e') := by
  cases hw : e.kind.bracketed with
  | true =>
    obtain ⟨is', hp, hs, hd⟩ := h.paren
    refine ⟨is', _, ⟨?_, ?_, ?_, ?_⟩, fun _ => hd⟩
    · rw [wrapped_text _ _ _ hw]
      exact hp.mono fun _ _ => trivial
    · rw [opLead, if_pos hw]; exact hs
    · rw [opLead, if_pos hw]; rfl
    · rw [opGrade, if_pos hw]
      intro p
      have := hd [] _ (.a_nil _ _)
      rw [List.append_nil] at this
      exact .e_var this
  | false =>
    refine ⟨is, ts, ⟨?_, ?_, ?_, ?_⟩, fun hb => ?_⟩
    · rw [unwrapped_text _ _ _ hw]
      exact h.pc
    · rw [opLead, hw]; exact h.st
    · rw [opLead, hw]; exact h.nf
    · rw [opGrade, hw]; exact h.gr
    · refine h.vr ?_
      unfold baseOk at hb
      rw [hw] at hb
      exact hb

theorem OC.nocast {ld : Lead} {num : Bool} {g : Grade} {e : Expr} {cs : List Chunk} {is : List Item} {ts : List Token}
    (h : OC ld num g e cs is ts) {rest : Text} (ha : Apart false is rest) : ¬ CastAhead (render is ++ rest) := h.st.nocast h.nf ha

theorem grade_loose {e : Expr} : opGrade e ≠ .loose := by
  obtain ⟨k, sp⟩ := e
  unfold opGrade
  split
  · exact nofun
  · rename_i hw
    cases k <;> first | exact absurd rfl hw | (intro h; cases h)

theorem isVar_grade {e : Expr} (h : e.isVar = true) : e.grade = .tight := by
  obtain ⟨k, sp⟩ := e
  cases k with
  | _ => first | rfl | cases h

theorem isVar_safe {e : Expr} (h : e.isVar = true) : safeEnd e.kind = true := by
  obtain ⟨k, sp⟩ := e
  cases k with
  | _ => first | rfl | cases h

theorem baseOk_safe {e : Expr} (h : baseOk e = true) : (!(e.kind.bracketed || safeEnd e.kind)) = false := by
  unfold baseOk at h
  rw [Bool.or_eq_true] at h
  rcases h with h | h
  · rw [h]; rfl
  · rw [isVar_safe h, Bool.or_true]; rfl

end

end Pico
