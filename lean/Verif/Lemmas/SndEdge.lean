import Verif.Spec.Edges
/-!
# How the phrases of the grammar begin and end
-/
namespace Pico

def EndsOk (ts : List Token) : Prop := ∃ us t, ts = us ++ [t] ∧ endsStmt t = true

theorem EndsOk.app {ts : List Token} (us : List Token) (h : EndsOk ts) : EndsOk (us ++ ts) := by
  obtain ⟨vs, t, rfl, h⟩ := h
  exact ⟨us ++ vs, t, by simp, h⟩

theorem EndsOk.cons {ts : List Token} (u : Token) (h : EndsOk ts) : EndsOk (u :: ts) := h.app [u]

theorem EndsOk.or {ts us : List Token} (h : EndsOk ts) (h' : us = [] ∨ EndsOk us) : EndsOk (ts ++ us) := by
  rcases h' with rfl | h'
  · simpa using h
  · exact h'.app ts

theorem EndsOk.semi : EndsOk [.k .SemiColon] := ⟨[], _, rfl, rfl⟩
theorem EndsOk.brace : EndsOk [.k .CurlyBracesClose] := ⟨[], _, rfl, rfl⟩

def EndCat (ts : List Token) : Cat → Prop
  | .stmt _ | .body _ | .top | .fn _ _ _ => EndsOk ts
  | .ifTail | .catches | .fin | .tops => ts = [] ∨ EndsOk ts
  | _ => True

theorem derives_end {lax : Bool} {c : Cat} {ts : List Token} {t : c.Tree} (h : DerivesX lax c ts t) : EndCat ts c := by
  induction h <;> first | trivial | exact Or.inl rfl | (simp only [EndCat] at *) <;>
    first
      | (repeat' first | exact EndsOk.semi | exact EndsOk.brace | assumption | apply EndsOk.cons | apply EndsOk.app); done
      | (right; repeat' first | exact EndsOk.semi | exact EndsOk.brace | assumption | apply EndsOk.cons | apply EndsOk.app); done
      | skip
  case s_if h1 h2 h3 => exact (((h2.or h3).cons _).app _).cons _ |>.cons _
  case s_try h1 h2 =>
    have := (EndsOk.brace.or h1).or h2
    rw [List.append_assoc] at this
    exact ((this.app _).cons _).cons _
  case if_elseif h1 h2 h3 => exact .inr ((((h2.or h3).cons _).app _).cons _ |>.cons _)
  case catches_cons h1 =>
    exact .inr (((((((EndsOk.brace.or h1).app _).cons _).cons _).cons _).app _).cons _ |>.cons _)
  case tops_cons h1 h2 => exact .inr (h1.or h2)

/-- It begins with a token that satisfies `f`. -/
def BeginsBy (f : Token → Bool) (ts : List Token) : Prop := ∃ t us, ts = t :: us ∧ f t = true

theorem BeginsBy.app {f : Token → Bool} {ts : List Token} (h : BeginsBy f ts) (us : List Token) : BeginsBy f (ts ++ us) := by
  obtain ⟨t, vs, rfl, h⟩ := h
  exact ⟨t, vs ++ us, rfl, h⟩

theorem BeginsBy.cons {f : Token → Bool} (t : Token) (ts : List Token) (h : f t = true) : BeginsBy f (t :: ts) := ⟨t, ts, rfl, h⟩

theorem BeginsBy.mono {f g : Token → Bool} {ts : List Token} (h : BeginsBy f ts) (hg : ∀ t, f t = true → g t = true) : BeginsBy g ts := by
  obtain ⟨t, us, rfl, h⟩ := h
  exact ⟨t, us, rfl, hg t h⟩

theorem begins_qual (abs : Bool) (ns : List Text) (id : Text) : BeginsBy beginsExpr (qualToks abs ns id) := by
  unfold qualToks
  cases abs
  · cases ns <;> exact .cons _ _ rfl
  · exact .cons _ _ rfl

theorem begins_class {ts : List Token} {p : Path} (h : ClassName ts p) : BeginsBy beginsExpr ts := by
  cases h
  · exact .cons _ _ rfl
  · exact begins_qual ..

theorem beginsExpr_stmt (t : Token) (h : beginsExpr t = true) : beginsStmt t = true := by
  unfold beginsStmt
  split <;> first | rfl | exact h

theorem beginsStmt_top (t : Token) (h : beginsStmt t = true) : beginsTop t = true := by
  unfold beginsTop
  split <;> first | rfl | exact h

theorem begins_startsVar {t : Token} (h : startsVar t = true) : beginsExpr t = true := by
  revert h
  unfold startsVar
  split <;> simp [beginsExpr]

theorem begins_startsClass {t : Token} (h : startsClass t = true) : beginsStmt t = true := by
  revert h
  unfold startsClass
  split <;> simp [beginsStmt]

theorem begins_prefix {kw : Kw} {op : UnaryOp} (h : prefixOf kw = some op) : beginsExpr (.k kw) = true := by simp [beginsExpr, h]
theorem begins_cast {kw : Kw} {op : Ty} (h : castOf kw = some op) : beginsExpr (.k kw) = true := by simp [beginsExpr, h]
theorem begins_include {kw : Kw} {op : IncludeTy} (h : includeOf kw = some op) : beginsExpr (.k kw) = true := by simp [beginsExpr, h]
theorem begins_magic {kw : Kw} {op : Const} (h : magicOf kw = some op) : beginsExpr (.k kw) = true := by simp [beginsExpr, h]

def BeginCat (ts : List Token) : Cat → Prop
  | .expr _ _ | .var => BeginsBy beginsExpr ts
  | .stmt _ | .body _ => BeginsBy beginsStmt ts
  | .top => BeginsBy beginsTop ts
  | .tops => ts = [] ∨ BeginsBy beginsTop ts
  | _ => True

theorem derives_begin {lax : Bool} {c : Cat} {ts : List Token} {t : c.Tree} (h : DerivesX lax c ts t) : BeginCat ts c := by
  induction h <;> first | trivial | exact Or.inl rfl | (simp only [BeginCat] at *) <;>
    first
      | assumption
      | exact BeginsBy.cons _ _ rfl
      | exact BeginsBy.app (by assumption) _
      | exact BeginsBy.app (begins_class (by assumption)) _
      | exact begins_class (by assumption)
      | exact BeginsBy.app (begins_qual ..) _
      | exact BeginsBy.cons _ _ (begins_prefix (by assumption))
      | exact BeginsBy.cons _ _ (begins_cast (by assumption))
      | exact BeginsBy.cons _ _ (begins_include (by assumption))
      | exact BeginsBy.cons _ _ (begins_magic (by assumption))
      | exact BeginsBy.cons _ _ (begins_startsVar (by assumption))
      | exact BeginsBy.cons _ _ (begins_startsClass (by assumption))
      | skip
  case s_expr h => exact (h.mono beginsExpr_stmt).app _
  case t_stmt h => exact h.mono beginsStmt_top
  case tops_cons h _ => exact .inr (h.app _)
  case s_class ms _ _ _ _ _ _ _ _ _ _ _ =>
    cases ms with
    | nil => exact .cons _ _ rfl
    | cons m ms => cases m <;> exact .cons _ _ rfl

end Pico
