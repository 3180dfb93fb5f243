import Verif.Spec.Grammar
/-!
# How expressions begin

No expression begins like a declaration: `static` is not followed by a variable, `function` not by a name.
-/
namespace Pico

structure NoDecl (ts : List Token) : Prop where
  ne : ts ≠ []
  st : ∀ r, ts = .k .Static :: r → r = [] ∨ ∃ k r', r = .k k :: r'
  fn : ∀ r, ts = .k .Function :: r → ∃ b r', r = refToks b ++ .k .ParenthesesOpen :: r'

theorem NoDecl.append {ts : List Token} (h : NoDecl ts) (k : Kw) (us : List Token) : NoDecl (ts ++ .k k :: us) := by
  obtain ⟨h0, h1, h2⟩ := h
  cases ts with
  | nil => exact absurd rfl h0
  | cons t ts =>
    refine ⟨nofun, ?_, ?_⟩
    · intro r hr
      injection hr with e1 e2
      subst e1 e2
      rcases h1 _ rfl with rfl | ⟨k', r', rfl⟩
      · exact .inr ⟨k, us, rfl⟩
      · exact .inr ⟨k', _, rfl⟩
    · intro r hr
      injection hr with e1 e2
      subst e1 e2
      obtain ⟨b, r', rfl⟩ := h2 _ rfl
      exact ⟨b, r' ++ .k k :: us, by simp⟩

theorem NoDecl.of {t : Token} (us : List Token) (h1 : t ≠ .k .Static) (h2 : t ≠ .k .Function) : NoDecl (t :: us) :=
  ⟨nofun, fun r h => absurd (List.cons.inj h).1 h1, fun r h => absurd (List.cons.inj h).1 h2⟩

theorem qualToks_head (abs : Bool) (ns : List Text) (id : Text) :
    ∃ t us, qualToks abs ns id = t :: us ∧ t ≠ .k .Static ∧ t ≠ .k .Function := by
  cases abs with
  | true => exact ⟨_, _, rfl, nofun, nofun⟩
  | false =>
    cases ns with
    | nil => exact ⟨_, _, rfl, nofun, nofun⟩
    | cons n ns => exact ⟨_, _, rfl, nofun, nofun⟩

theorem noDecl_qual (abs : Bool) (ns : List Text) (id : Text) (us : List Token) : NoDecl (qualToks abs ns id ++ us) := by
  obtain ⟨t, vs, h, h1, h2⟩ := qualToks_head abs ns id
  rw [h]
  exact .of _ h1 h2

theorem noDecl_class {ts : List Token} {p : Path} (h : ClassName ts p) : NoDecl ts := by
  cases h with
  | static => exact ⟨nofun, fun r h => .inl (List.cons.inj h).2.symm, fun r h => by cases h⟩
  | qual abs ns id => have := noDecl_qual abs ns id []; rwa [List.append_nil] at this

/-- What is claimed of each category. -/
def StartOK : Cat → List Token → Prop
  | .expr _ _, ts => NoDecl ts
  | .var, ts => NoDecl ts
  | .fn _ _ _, ts => ∃ r, ts = .k .ParenthesesOpen :: r
  | _, _ => True

theorem kw_neither {α : Type} {f : Kw → Option α} {a : α} {kw : Kw} (h : f kw = some a) (h1 : f .Static = none) (h2 : f .Function = none) (us : List Token) :
    NoDecl (.k kw :: us) := by
  refine .of us ?_ ?_ <;> (intro e; cases e; simp_all)

theorem derives_start {c : Cat} {ts : List Token} {t : c.Tree} (h : Derives c ts t) : StartOK c ts := by
  induction h with
  | v_static n hc h ih => exact (noDecl_class hc).append _ _
  | v_scall hc hm ha h ih => exact (noDecl_class hc).append _ _
  | v_call abs ns id ha h iha ih => exact noDecl_qual _ _ _ _
  | e_var h ih => exact ih
  | e_postInc h ih => exact ih.append _ _
  | e_postDec h ih => exact ih.append _ _
  | e_name h => exact noDecl_class h
  | e_classConst hc hm => exact (noDecl_class hc).append _ _
  | @e_closure p r ts f h ih =>
    obtain ⟨r', rfl⟩ := ih
    exact ⟨nofun, fun r h => (by cases h), fun r h => ⟨_, r', (List.cons.inj h).2.symm⟩⟩
  | e_assign h h' ih ih' => exact ih.append _ _
  | e_assignRef h h' ih ih' => exact ih.append _ _
  | e_compound hk h h' ih ih' => exact ih.append _ _
  | e_left hk hl hp h hs h' ih ih' => exact ih.append _ _
  | e_pow hp h hs h' ih ih' => exact ih.append _ _
  | e_ternary hp h hs h' h'' ih ih' ih'' => exact ih.append _ _
  | e_elvis hp h hs h'' ih ih'' => exact ih.append _ _
  | e_instance hp h hs hi h' ih ih' => exact ih.append _ _
  | e_list h h' ih ih' => exact NoDecl.of _ nofun nofun
  | e_magic h => exact kw_neither h rfl rfl _
  | e_include hk h ih => exact kw_neither hk rfl rfl _
  | e_cast hk h ih => exact kw_neither hk rfl rfl _
  | e_prefix hk h ih => exact kw_neither hk rfl rfl _
  | fn_body h hu h' ih ih' => exact ⟨_, rfl⟩
  | fn_abstract h ih => exact ⟨_, rfl⟩
  | _ => first | trivial | contradiction | exact NoDecl.of _ nofun nofun

end Pico
