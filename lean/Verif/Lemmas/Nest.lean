import Verif.Lemmas.SndNn
/-!
# The brackets in the phrases of the grammar match
-/
namespace Pico

theorem nest_append (st : List Bracket) (ts us : List Token) : nest st (ts ++ us) = (nest st ts).bind fun st => nest st us := by
  induction ts generalizing st with
  | nil => rfl
  | cons t ts ih =>
    simp only [List.cons_append, nest]
    cases nestTok st t with
    | none => rfl
    | some st => exact ih st

/-- Tokens whose brackets match, whatever is open before them. -/
def Ba (ts : List Token) : Prop := ∀ st, nest st ts = some st

theorem Ba.nil : Ba [] := fun _ => rfl

theorem Ba.app {ts us : List Token} (h : Ba ts) (h' : Ba us) : Ba (ts ++ us) := fun st => by
  rw [nest_append, h st]
  exact h' st

theorem Ba.tok {t : Token} (h : ∀ b : Bracket, b.closes t = false ∧ b.opens t = false) (st : List Bracket) : nestTok st t = some st := by
  unfold nestTok
  simp [(h _).1, (h _).2]

theorem Ba.one {t : Token} (h : ∀ b : Bracket, b.closes t = false ∧ b.opens t = false) : Ba [t] := fun st => by
  simp only [nest, Ba.tok h, Option.bind_some]

/-- A single token. -/
def Ba1 (t : Token) : Prop := ∀ st, nestTok st t = some st

theorem ba_ident {t : Token} {m : Text} (h : Ident t m) : Ba1 t := Ba.tok h.closes
theorem ba_infix {kw : Kw} {lv : Nat} (h : infixLevel kw = some lv) : Ba1 (.k kw) := Ba.tok (closes_infix h)
theorem ba_prefix {kw : Kw} {o : UnaryOp} (h : prefixOf kw = some o) : Ba1 (.k kw) := Ba.tok (closes_prefix h)
theorem ba_cast {kw : Kw} {o : Ty} (h : castOf kw = some o) : Ba1 (.k kw) := Ba.tok (closes_cast h)
theorem ba_include {kw : Kw} {o : IncludeTy} (h : includeOf kw = some o) : Ba1 (.k kw) := Ba.tok (closes_include h)
theorem ba_magic {kw : Kw} {o : Const} (h : magicOf kw = some o) : Ba1 (.k kw) := Ba.tok (closes_magic h)
theorem ba_compound {kw : Kw} {o : Op} (h : compoundOf kw = some o) : Ba1 (.k kw) := Ba.tok (closes_compound h)

theorem ba_name (ns : List Text) (id : Text) : Ba (nameToks ns id) := by
  induction ns with
  | nil => exact .one fun b => by cases b <;> exact ⟨rfl, rfl⟩
  | cons x ns ih =>
    exact .app (us := _ :: _) (.one fun b => by cases b <;> exact ⟨rfl, rfl⟩)
      (.app (.one fun b => by cases b <;> exact ⟨rfl, rfl⟩) ih)

theorem ba_qual (abs : Bool) (ns : List Text) (id : Text) : Ba (qualToks abs ns id) := by
  unfold qualToks
  cases abs
  · exact ba_name ns id
  · exact .app (.one fun b => by cases b <;> exact ⟨rfl, rfl⟩) (ba_name ns id)

theorem ba_class {ts : List Token} {p : Path} (h : ClassName ts p) : Ba ts := by
  cases h
  · exact .one fun b => by cases b <;> exact ⟨rfl, rfl⟩
  · exact ba_qual _ _ _

theorem ba_ref (r : Bool) : Ba (refToks r) := by
  cases r
  · exact .nil
  · exact .one fun b => by cases b <;> exact ⟨rfl, rfl⟩

theorem ba_variadic (r : Bool) : Ba (variadicToks r) := by
  cases r
  · exact .nil
  · exact .one fun b => by cases b <;> exact ⟨rfl, rfl⟩

theorem ba_map {α : Type} (f : α → Kw) (h : ∀ a (b : Bracket), b.closes (.k (f a)) = false ∧ b.opens (.k (f a)) = false) (l : List α) :
    Ba (l.map fun a => .k (f a)) := by
  induction l with
  | nil => exact .nil
  | cons a l ih => exact .app (us := l.map _) (.one (h a)) ih

theorem ba_memberMods (ms : List MemberModifier) : Ba (memberModifierToks ms) :=
  ba_map _ (fun m b => by cases m <;> cases b <;> exact ⟨rfl, rfl⟩) ms

theorem ba_classMods (ms : List ClassModifier) : Ba (classModifierToks ms) :=
  ba_map _ (fun m b => by cases m <;> cases b <;> exact ⟨rfl, rfl⟩) ms

theorem ba_round (st : List Bracket) : nestTok st (.k .ParenthesesOpen) = some (.round :: st) := rfl
theorem ba_square (st : List Bracket) : nestTok st (.k .SquareBracketOpen) = some (.square :: st) := rfl
theorem ba_curly (st : List Bracket) : nestTok st (.k .CurlyBracesOpen) = some (.curly :: st) := rfl
theorem ba_dollar (st : List Bracket) : nestTok st (.k .DollarCurlyBracesOpen) = some (.curly :: st) := rfl
theorem ba_round' (st : List Bracket) : nestTok (.round :: st) (.k .ParenthesesClose) = some st := rfl
theorem ba_square' (st : List Bracket) : nestTok (.square :: st) (.k .SquareBracketClose) = some st := rfl
theorem ba_curly' (st : List Bracket) : nestTok (.curly :: st) (.k .CurlyBracesClose) = some st := rfl

end Pico

open Lean Elab Tactic Meta in
/-- Matches brackets, with what the hypotheses say about the parts. -/
elab "ba" : tactic => do
  let add (e : Expr) : TacticM Unit := do
    let g ← getMainGoal
    let g ← g.assert `bah (← inferType e) e
    let (_, g) ← g.intro1
    replaceMainGoal [g]
  let g0 ← getMainGoal
  let lctx := (← g0.getDecl).lctx
  for d in lctx do
    if d.isImplementationDetail then continue
    let lemmas ← g0.withContext do
      let t ← instantiateMVars d.type
      return (match t.getAppFn.constName? with
        | some `Pico.ClassName => [`Pico.ba_class]
        | some `Pico.Ident => [`Pico.ba_ident]
        | some `Pico.NameList => [`Pico.ba_names]
        | some `Pico.TypeHint => [`Pico.ba_hint]
        | some `Pico.Captures => [`Pico.ba_captures]
        | some `Pico.UseClauses => [`Pico.ba_useClauses]
        | some `Pico.GlobalList => [`Pico.ba_globals]
        | some `Pico.TraitRules => [`Pico.ba_rules]
        | some `Pico.OptNames => [`Pico.ba_implements, `Pico.ba_extends]
        | some `Pico.OptBase => [`Pico.ba_optBase]
        | some `Pico.UseList => [`Pico.ba_useList]
        | some `Eq => [`Pico.ba_infix, `Pico.ba_prefix, `Pico.ba_cast, `Pico.ba_include, `Pico.ba_magic, `Pico.ba_compound]
        | _ => [])
    for c in lemmas do
      if (← getEnv).contains c then
        let e? ← (← getMainGoal).withContext (observing? (mkAppM c #[d.toExpr]))
        if let some e := e? then (← getMainGoal).withContext (add e)
  evalTactic (← `(tactic| (
    intro st
    try simp only [Pico.Ba, Pico.Ba1] at *
    simp only [Pico.nest_append, Pico.nest, Option.bind_some, Pico.ba_round, Pico.ba_square, Pico.ba_curly, Pico.ba_dollar,
      Pico.ba_round', Pico.ba_square', Pico.ba_curly', Pico.ba_qual _ _ _ _, Pico.ba_name _ _ _, Pico.ba_ref _ _,
      Pico.ba_variadic _ _, Pico.ba_memberMods _ _, Pico.ba_classMods _ _, *]
    try simp only [Pico.nestTok, Pico.Bracket.opens, Pico.Bracket.closes, Bool.false_eq_true, if_false, if_true, Option.bind_some, Pico.nest_append,
      Pico.nest, *])))

namespace Pico

theorem ba_names {ts : List Token} {ps : List Path} (h : NameList ts ps) : Ba ts := by
  induction h <;> ba

theorem ba_hint {ts : List Token} {t : Option Ty} (h : TypeHint ts t) : Ba ts := by
  cases h <;> ba

theorem ba_captures {ts : List Token} {vs : List (Bool × Text)} (h : Captures ts vs) : Ba ts := by
  induction h <;> ba

theorem ba_useClauses {c : Bool} {ts : List Token} {vs : List (Bool × Text)} (h : UseClauses c ts vs) : Ba ts := by
  cases h <;> ba

theorem ba_globals {ts : List Token} {vs : List Variable} (h : GlobalList ts vs) : Ba ts := by
  induction h <;> ba

theorem ba_rules {ts : List Token} {vs : List TraitUse} (h : TraitRules ts vs) : Ba ts := by
  induction h <;> ba

theorem ba_implements {ts : List Token} {ps : List Path} (h : OptNames .Implements ts ps) : Ba ts := by
  cases h <;> ba

theorem ba_extends {ts : List Token} {ps : List Path} (h : OptNames .Extends ts ps) : Ba ts := by
  cases h <;> ba

theorem ba_optBase {ts : List Token} {p : Option Path} (h : OptBase ts p) : Ba ts := by
  cases h <;> ba

theorem ba_useList {ts : List Token} {cs : List UseClause} (h : UseList ts cs) : Ba ts := by
  induction h <;> ba

theorem derives_ba {c : Cat} {ts : List Token} {t : c.Tree} (h : Derives c ts t) : Ba ts := by
  unfold Derives at h
  generalize hl : false = lax at h
  induction h <;> (try (rename (lax = true) => hx; rw [hx] at hl; cases hl; done)) <;> clear hl
  all_goals first | assumption | (ba; done) | skip
  case parts_var h hs h' ih ih' => exact ih.app ih'
  case clauses_case colon _ _ _ _ _ _ _ _ _ _ => cases colon <;> ba
  case clauses_default colon _ _ _ _ _ _ _ _ _ => cases colon <;> ba

end Pico
