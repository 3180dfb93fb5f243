import Verif.Spec.Grammar
import Verif.Lemmas.Brackets
/-!
# The phrases of the grammar close no bracket they have not opened
-/
namespace Pico

theorem nn_kw {kw : Kw} (h : ∀ b : Bracket, b.closes (.k kw) = false) : Nn [.k kw] := .one h

theorem nn_name (ns : List Text) (id : Text) : Nn (nameToks ns id) := by
  induction ns with
  | nil => exact .one fun b => by cases b <;> rfl
  | cons x ns ih =>
    exact .app (us := _ :: _) (.one fun b => by cases b <;> rfl) (.app (.one fun b => by cases b <;> rfl) ih)

theorem nn_qual (abs : Bool) (ns : List Text) (id : Text) : Nn (qualToks abs ns id) := by
  unfold qualToks
  cases abs
  · exact nn_name ns id
  · exact .app (.one fun b => by cases b <;> rfl) (nn_name ns id)

theorem nn_class {ts : List Token} {p : Path} (h : ClassName ts p) : Nn ts := by
  cases h
  · exact .one fun b => by cases b <;> rfl
  · exact nn_qual _ _ _

theorem Ident.closes {t : Token} {m : Text} (h : Ident t m) (b : Bracket) : b.closes t = false ∧ b.opens t = false := by
  cases h with
  | word s => cases b <;> exact ⟨rfl, rfl⟩
  | reserved k s h =>
    have : ∀ x ∈ memberWords, ∀ b ∈ [Bracket.round, .square, .curly], b.closes (.k x.2) = false ∧ b.opens (.k x.2) = false := by
      decide +kernel
    exact this _ h b (by cases b <;> simp)

theorem nn_ident {t : Token} {m : Text} (h : Ident t m) : Nn [t] := .one fun b => (h.closes b).1

theorem closes_infix {kw : Kw} {lv : Nat} (h : infixLevel kw = some lv) (b : Bracket) : b.closes (.k kw) = false ∧ b.opens (.k kw) = false := by
  cases b <;> cases kw <;> first | exact ⟨rfl, rfl⟩ | cases h
theorem closes_prefix {kw : Kw} {o : UnaryOp} (h : prefixOf kw = some o) (b : Bracket) : b.closes (.k kw) = false ∧ b.opens (.k kw) = false := by
  cases b <;> cases kw <;> first | exact ⟨rfl, rfl⟩ | cases h
theorem closes_cast {kw : Kw} {o : Ty} (h : castOf kw = some o) (b : Bracket) : b.closes (.k kw) = false ∧ b.opens (.k kw) = false := by
  cases b <;> cases kw <;> first | exact ⟨rfl, rfl⟩ | cases h
theorem closes_include {kw : Kw} {o : IncludeTy} (h : includeOf kw = some o) (b : Bracket) : b.closes (.k kw) = false ∧ b.opens (.k kw) = false := by
  cases b <;> cases kw <;> first | exact ⟨rfl, rfl⟩ | cases h
theorem closes_magic {kw : Kw} {o : Const} (h : magicOf kw = some o) (b : Bracket) : b.closes (.k kw) = false ∧ b.opens (.k kw) = false := by
  cases b <;> cases kw <;> first | exact ⟨rfl, rfl⟩ | cases h
theorem closes_compound {kw : Kw} {o : Op} (h : compoundOf kw = some o) (b : Bracket) : b.closes (.k kw) = false ∧ b.opens (.k kw) = false := by
  cases b <;> cases kw <;> first | exact ⟨rfl, rfl⟩ | cases h

theorem nn_ref (r : Bool) : Nn (refToks r) := by
  cases r
  · exact .nil
  · exact .one fun b => by cases b <;> rfl

theorem nn_variadic (r : Bool) : Nn (variadicToks r) := by
  cases r
  · exact .nil
  · exact .one fun b => by cases b <;> rfl

theorem nn_map {α : Type} (f : α → Kw) (h : ∀ a (b : Bracket), b.closes (.k (f a)) = false) (l : List α) : Nn (l.map fun a => .k (f a)) := by
  induction l with
  | nil => exact .nil
  | cons a l ih => exact .app (us := l.map _) (.one (h a)) ih

theorem nn_memberMods (ms : List MemberModifier) : Nn (memberModifierToks ms) :=
  nn_map _ (fun m b => by cases m <;> cases b <;> rfl) ms

theorem nn_classMods (ms : List ClassModifier) : Nn (classModifierToks ms) :=
  nn_map _ (fun m b => by cases m <;> cases b <;> rfl) ms

end Pico

open Lean Elab Tactic Meta in
/-- Counts brackets, with what the hypotheses say about the parts. -/
elab "nn" : tactic => do
  let add (e : Expr) : TacticM Unit := do
    let g ← getMainGoal
    let g ← g.assert `nnh (← inferType e) e
    let (_, g) ← g.intro1
    replaceMainGoal [g]
  let g0 ← getMainGoal
  let lctx := (← g0.getDecl).lctx
  -- hypotheses
  for d in lctx do
    if d.isImplementationDetail then continue
    let lemmas ← g0.withContext do
      let t ← instantiateMVars d.type
      return (match t.getAppFn.constName? with
        | some `Pico.ClassName => [`Pico.nn_class]
        | some `Pico.Ident => [`Pico.nn_ident]
        | some `Pico.NameList => [`Pico.nn_names]
        | some `Pico.TypeHint => [`Pico.nn_hint]
        | some `Pico.Captures => [`Pico.nn_captures]
        | some `Pico.UseClauses => [`Pico.nn_useClauses]
        | some `Pico.GlobalList => [`Pico.nn_globals]
        | some `Pico.TraitRules => [`Pico.nn_rules]
        | some `Pico.LaxRules => [`Pico.nn_laxRules]
        | some `Pico.OptNames => [`Pico.nn_implements, `Pico.nn_extends]
        | some `Pico.OptBase => [`Pico.nn_optBase]
        | some `Pico.UseList => [`Pico.nn_useList]
        | some `Pico.NoStray => [`Pico.NoStray.nn]
        | some `Pico.DerivesX => [`Pico.derives_nn]
        | some `Pico.D => [`Pico.derives_nn]
        | some `Pico.Ex0 => [`Pico.Ex0.nn]
        | some `Pico.ExS => [`Pico.ExS.nn]
        | some `Pico.OpS => [`Pico.OpS.nn]
        | some `Pico.StS => [`Pico.StS.nn]
        | some `Pico.Pend => [`Pico.Pend.nn]
        | some `Eq => [`Pico.nn_infix, `Pico.nn_prefix, `Pico.nn_cast, `Pico.nn_include, `Pico.nn_magic, `Pico.nn_compound,
            `Pico.nn_startsVar, `Pico.nn_startsClass]
        | _ => [])
    for c in lemmas do
      if (← getEnv).contains c then
        let e? ← (← getMainGoal).withContext (observing? (mkAppM c #[d.toExpr]))
        if let some e := e? then (← getMainGoal).withContext (add e)
  -- parts of the goal
  let goal ← instantiateMVars (← g0.getType)
  let mut parts : Array (Name × Expr) := #[]
  for (f, c) in [(`Pico.qualToks, `Pico.nn_qual), (`Pico.nameToks, `Pico.nn_name), (`Pico.refToks, `Pico.nn_ref),
      (`Pico.variadicToks, `Pico.nn_variadic), (`Pico.memberModifierToks, `Pico.nn_memberMods),
      (`Pico.classModifierToks, `Pico.nn_classMods)] do
    let r ← IO.mkRef (#[] : Array Expr)
    goal.forEach fun e => do if e.isAppOf f then r.modify (·.push e)
    for e in ← r.get do parts := parts.push (c, e)
  for (c, e) in parts do
    let e? ← (← getMainGoal).withContext (observing? (mkAppM c e.getAppArgs))
    if let some e := e? then (← getMainGoal).withContext (add e)
  evalTactic (← `(tactic| intro b))
  let g1 ← getMainGoal
  let lctx := (← g1.getDecl).lctx
  let some b := lctx.lastDecl | throwError "no bracket"
  for d in lctx do
    if d.isImplementationDetail then continue
    let t ← g1.withContext (instantiateMVars d.type)
    if t.isAppOf `Pico.Nn then
      for c in [`Pico.Nn.apply, `Pico.Nn.tot] do
        (← getMainGoal).withContext do add (← mkAppM c #[d.toExpr, b.toExpr])
  evalTactic (← `(tactic| (
    try simp only [Pico.Bracket.low_append, Pico.Bracket.tot_append, Pico.Bracket.low, Pico.Bracket.tot, Int.add_zero] at *
    cases b <;> (try simp only [Pico.Bracket.w, Pico.Bracket.opens, Pico.Bracket.closes, if_true, if_false, Bool.false_eq_true] at *) <;> omega)))

namespace Pico

theorem nn_infix {kw : Kw} {lv : Nat} (h : infixLevel kw = some lv) : Nn [.k kw] := .one fun b => (closes_infix h b).1
theorem nn_prefix {kw : Kw} {o : UnaryOp} (h : prefixOf kw = some o) : Nn [.k kw] := .one fun b => (closes_prefix h b).1
theorem nn_cast {kw : Kw} {o : Ty} (h : castOf kw = some o) : Nn [.k kw] := .one fun b => (closes_cast h b).1
theorem nn_include {kw : Kw} {o : IncludeTy} (h : includeOf kw = some o) : Nn [.k kw] := .one fun b => (closes_include h b).1
theorem nn_magic {kw : Kw} {o : Const} (h : magicOf kw = some o) : Nn [.k kw] := .one fun b => (closes_magic h b).1
theorem nn_compound {kw : Kw} {o : Op} (h : compoundOf kw = some o) : Nn [.k kw] := .one fun b => (closes_compound h b).1

theorem nn_startsVar {t : Token} (h : startsVar t = true) : Nn [t] := by
  revert h
  unfold startsVar
  split <;> intro h <;> first | exact absurd h Bool.false_ne_true | exact .one fun b => by cases b <;> rfl

theorem nn_startsClass {t : Token} (h : startsClass t = true) : Nn [t] := by
  revert h
  unfold startsClass
  split <;> intro h <;> first | exact absurd h Bool.false_ne_true | exact .one fun b => by cases b <;> rfl

theorem nn_names {ts : List Token} {ps : List Path} (h : NameList ts ps) : Nn ts := by
  induction h with
  | one => exact nn_qual _ _ _
  | cons abs ns id h ih => have := nn_qual abs ns id; nn

theorem nn_hint {ts : List Token} {t : Option Ty} (h : TypeHint ts t) : Nn ts := by
  cases h with
  | name abs ns id => exact nn_qual abs ns id
  | nullName abs ns id => have := nn_qual abs ns id; nn
  | _ => nn

theorem nn_captures {ts : List Token} {vs : List (Bool × Text)} (h : Captures ts vs) : Nn ts := by
  induction h with
  | one r v => have := nn_ref r; nn
  | cons r v h ih => have := nn_ref r; nn

theorem nn_useClauses {c : Bool} {ts : List Token} {vs : List (Bool × Text)} (h : UseClauses c ts vs) : Nn ts := by
  cases h with
  | none => nn
  | some h => have := nn_captures h; nn

theorem nn_globals {ts : List Token} {vs : List Variable} (h : GlobalList ts vs) : Nn ts := by
  induction h <;> nn

theorem nn_rules {ts : List Token} {vs : List TraitUse} (h : TraitRules ts vs) : Nn ts := by
  induction h with
  | nil => nn
  | insteadOf abs ns id hm hn h ih => have := nn_qual abs ns id; have := nn_ident hm; have := nn_names hn; nn
  | asQual abs ns id hm a h ih => have := nn_qual abs ns id; have := nn_ident hm; nn
  | asSimple hm a h ih => have := nn_ident hm; nn

theorem nn_laxRules {ts : List Token} {vs : List TraitUse} (h : LaxRules ts vs) : Nn ts := by
  induction h with
  | nil => nn
  | insteadOf abs ns id hm hn h ih => have := nn_qual abs ns id; have := nn_ident hm; have := nn_names hn; nn
  | asQual abs ns id hm a h ih => have := nn_qual abs ns id; have := nn_ident hm; nn
  | asSimple hm a h ih => have := nn_ident hm; nn
  | qual abs ns id hm h ih => have := nn_qual abs ns id; have := nn_ident hm; nn
  | simple hm h ih => have := nn_ident hm; nn

theorem nn_optNames {k : Kw} {ts : List Token} {ps : List Path} (hk : ∀ b : Bracket, b.closes (.k k) = false) (h : OptNames k ts ps) : Nn ts := by
  cases h with
  | none => nn
  | some h => exact .app (.one hk) (nn_names h)

theorem nn_implements {ts : List Token} {ps : List Path} (h : OptNames .Implements ts ps) : Nn ts :=
  nn_optNames (fun b => by cases b <;> rfl) h

theorem nn_extends {ts : List Token} {ps : List Path} (h : OptNames .Extends ts ps) : Nn ts :=
  nn_optNames (fun b => by cases b <;> rfl) h

theorem nn_optBase {ts : List Token} {p : Option Path} (h : OptBase ts p) : Nn ts := by
  cases h with
  | none => nn
  | some abs ns id => have := nn_qual abs ns id; nn

theorem nn_useList {ts : List Token} {cs : List UseClause} (h : UseList ts cs) : Nn ts := by
  induction h with
  | one abs ns id => exact nn_qual abs ns id
  | oneAs abs ns id a => have := nn_qual abs ns id; nn
  | cons abs ns id h ih => have := nn_qual abs ns id; nn
  | consAs abs ns id a h ih => have := nn_qual abs ns id; nn

theorem derives_nn {lax : Bool} {c : Cat} {ts : List Token} {t : c.Tree} (h : DerivesX lax c ts t) : Nn ts := by
  induction h <;> first | assumption | nn | skip
  case clauses_case colon _ _ _ _ _ _ _ _ _ _ => cases colon <;> nn
  case clauses_default colon _ _ _ _ _ _ _ _ _ => cases colon <;> nn
  case x_default colon _ _ _ _ _ _ _ => cases colon <;> nn

end Pico
