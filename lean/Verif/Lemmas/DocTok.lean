import Verif.Lemmas.TokRun
/-!
# Which tokens carry a documentation comment

The `doc_comment` of a range is set for `/** */` comments and for closing braces only.
-/
namespace Pico
open T

/-- The mark is empty, and only a comment or a closing brace has one. -/
def DocOk (x : TokSpan) : Prop :=
  x.span.doc = none ∨ x.span.doc = some [] ∧ (x.tok = .k .CurlyBracesClose ∨ ∃ c, x.tok = .comment c)

/-- All of these tokens are so. -/
structure DocAll (l : List TokSpan) : Prop where
  all : ∀ x ∈ l, DocOk x

theorem DocAll.nil : DocAll [] := ⟨nofun⟩
theorem DocAll.append {a b : List TokSpan} (h1 : DocAll a) (h2 : DocAll b) : DocAll (a ++ b) :=
  ⟨fun x hx => (List.mem_append.1 hx).elim (h1.all x) (h2.all x)⟩
theorem DocAll.cons {a : TokSpan} {b : List TokSpan} (h1 : DocOk a) (h2 : DocAll b) : DocAll (a :: b) :=
  ⟨fun x hx => (List.mem_cons.1 hx).elim (fun e => e ▸ h1) (h2.all x)⟩
theorem DocAll.set {l : List TokSpan} {n : Nat} {a : TokSpan} (h : DocAll l) (ha : DocOk a) : DocAll (l.set n a) :=
  ⟨fun x hx => (List.mem_or_eq_of_mem_set hx).elim (h.all x) (fun e => e ▸ ha)⟩
theorem DocOk.plain (k : Token) (a b : Nat) : DocOk ⟨k, mkSpan a b⟩ := .inl rfl

/-- `m` keeps the queue so and delivers something that satisfies `P`. -/
structure Dk {α : Type} (m : T α) (P : α → Prop) : Prop where
  ok : ∀ t a t', DocAll t.queue → m t = .ok a t' → P a ∧ DocAll t'.queue
  err : ∀ t e t', DocAll t.queue → m t = .err e t' → DocAll t'.queue

section
variable {α β : Type} {P : α → Prop} {Q : β → Prop}

theorem Dk.bind {m : T α} {f : α → T β} (h1 : Dk m P) (h2 : ∀ a, P a → Dk (f a) Q) : Dk (m >>= f) Q := by
  constructor
  · intro t b t' ht h
    rw [bind_apply] at h
    unfold T.bnd at h
    cases e : m t with
    | ok a t1 =>
      rw [e] at h
      obtain ⟨ha, h3⟩ := h1.ok t a t1 ht e
      exact (h2 a ha).ok t1 b t' h3 h
    | err x t1 => rw [e] at h; cases h
    | panic p => rw [e] at h; cases h
    | oof => rw [e] at h; cases h
  · intro t x t' ht h
    rw [bind_apply] at h
    unfold T.bnd at h
    cases e : m t with
    | ok a t1 =>
      rw [e] at h
      obtain ⟨ha, h3⟩ := h1.ok t a t1 ht e
      exact (h2 a ha).err t1 x t' h3 h
    | err y t1 => rw [e] at h; cases h; exact h1.err t _ _ ht e
    | panic p => rw [e] at h; cases h
    | oof => rw [e] at h; cases h

theorem Dk.pure {a : α} (h : P a) : Dk (pure a : T α) P :=
  ⟨fun t x t' ht e => by cases e; exact ⟨h, ht⟩, fun t e t' _ h => by cases h⟩
theorem Dk.fail {e : SyntaxErr} : Dk (fail e : T α) P :=
  ⟨fun t x t' ht e => by (cases e), fun t e t' ht h => by cases h; exact ht⟩
theorem Dk.abort {p : Panic} : Dk (abort p : T α) P := ⟨fun t x t' ht e => by (cases e), fun t e t' ht h => by cases h⟩
theorem Dk.noFuel : Dk (noFuel : T α) P := ⟨fun t x t' ht e => by (cases e), fun t e t' ht h => by cases h⟩

theorem Dk.orElse {m n : T α} (h1 : Dk m P) (h2 : Dk n P) : Dk (m <||> n) P := by
  constructor
  · intro t a t' ht h
    unfold T.orElse at h
    cases e : m t with
    | ok b t1 => rw [e] at h; cases h; exact h1.ok t a t' ht e
    | err x t1 =>
      rw [e] at h
      cases x with
      | none => exact h2.ok t1 a t' (h1.err t _ t1 ht e) h
      | unterminated w s => cases h
      | unknownCharacter s => cases h
    | panic p => rw [e] at h; cases h
    | oof => rw [e] at h; cases h
  · intro t a t' ht h
    unfold T.orElse at h
    cases e : m t with
    | ok b t1 => rw [e] at h; cases h
    | err x t1 =>
      rw [e] at h
      cases x with
      | none => exact h2.err t1 a t' (h1.err t _ t1 ht e) h
      | unterminated w s => cases h; exact h1.err t _ t' ht e
      | unknownCharacter s => cases h; exact h1.err t _ t' ht e
    | panic p => rw [e] at h; cases h
    | oof => rw [e] at h; cases h

theorem Dk.ite {c : Prop} [Decidable c] {m n : T α} (h1 : c → Dk m P) (h2 : ¬c → Dk n P) :
    Dk (if c then m else n) P := by
  split
  · exact h1 ‹_›
  · exact h2 ‹_›

theorem Dk.mono {m : T α} {P' : α → Prop} (h : Dk m P') (hp : ∀ a, P' a → P a) : Dk m P :=
  ⟨fun t a t' ht e => ⟨hp a (h.ok t a t' ht e).1, (h.ok t a t' ht e).2⟩, h.err⟩

end

/-- Anything. -/
abbrev Whatever {α : Type} (_ : α) : Prop := True

theorem Dk.getSt : Dk getSt Whatever := ⟨fun t x t' ht e => by cases e; exact ⟨trivial, ht⟩, fun t e t' ht h => by cases h⟩
theorem Dk.setSt {s : TState} : Dk (setSt s) Whatever := ⟨fun t x t' ht e => by cases e; exact ⟨trivial, ht⟩, fun t e t' ht h => by cases h⟩
theorem Dk.modSt {f : TState → TState} : Dk (modSt f) Whatever :=
  ⟨fun t x t' ht e => by cases e; exact ⟨trivial, ht⟩, fun t e t' ht h => by cases h⟩
theorem Dk.codeLen : Dk codeLen Whatever := ⟨fun t x t' ht e => by cases e; exact ⟨trivial, ht⟩, fun t e t' ht h => by cases h⟩
theorem Dk.inputPos : Dk inputPos Whatever := ⟨fun t x t' ht e => by cases e; exact ⟨trivial, ht⟩, fun t e t' ht h => by cases h⟩
theorem Dk.setPos {p : Nat} : Dk (setPos p) Whatever := Dk.modSt
theorem Dk.input : Dk input Whatever := by
  constructor
  · intro t a t' ht h
    unfold Pico.input at h
    split at h
    · cases h; exact ⟨trivial, ht⟩
    · cases h
  · intro t a t' ht h
    unfold Pico.input at h
    split at h <;> cases h
theorem Dk.subT {a b : Nat} : Dk (subT a b) Whatever := by
  unfold Pico.subT
  split
  · exact Dk.pure trivial
  · exact Dk.abort

/-- Known methods, each with what it delivers. -/
syntax "dk_call" : tactic
macro_rules | `(tactic| dk_call) => `(tactic| with_reducible first
  | exact Dk.getSt | exact Dk.setSt | exact Dk.modSt | exact Dk.codeLen | exact Dk.inputPos | exact Dk.setPos
  | exact Dk.input | exact Dk.subT | exact Dk.fail | exact Dk.abort | exact Dk.noFuel)

/-- One step. -/
macro "dk1" : tactic => `(tactic| with_reducible first
  | exact Dk.fail | exact Dk.abort | exact Dk.noFuel
  | refine Dk.pure ?_
  | refine Dk.orElse ?_ ?_
  | refine Dk.ite (fun _ => ?_) (fun _ => ?_)
  | (refine Dk.bind (by dk_call) ?_; intro _ _)
  | (refine Dk.mono (by dk_call) ?_; intro _ _))

/-- Leaves. -/
macro "dkp" : tactic => `(tactic| first
  | trivial | assumption | exact DocOk.plain _ _ _ | exact .inl rfl
  | (dsimp only at *; first | assumption | exact .inl rfl)
  | (simp only [Prod.fst, Prod.snd] at *; assumption))

/-- Run. -/
macro "dkgo" : tactic => `(tactic| repeat' (first | dk1 | split))

theorem advanceBytes_dk {n : Nat} : Dk (advanceBytes n) Whatever := by
  unfold advanceBytes; dkgo <;> dkp
macro_rules | `(tactic| dk_call) => `(tactic| with_reducible exact advanceBytes_dk)

theorem advanceChars_dk {n : Nat} : Dk (advanceChars n) Whatever := by
  unfold advanceChars; dkgo <;> dkp
macro_rules | `(tactic| dk_call) => `(tactic| with_reducible exact advanceChars_dk)

theorem popState_dk : Dk popState Whatever := by
  unfold popState; dkgo <;> dkp
macro_rules | `(tactic| dk_call) => `(tactic| with_reducible exact popState_dk)

theorem whitespace_dk : Dk whitespace Whatever := by
  unfold whitespace; dkgo <;> dkp
macro_rules | `(tactic| dk_call) => `(tactic| with_reducible exact whitespace_dk)

theorem whitespaceOnly_dk : Dk whitespaceOnly Whatever := by
  unfold whitespaceOnly; dkgo <;> dkp
macro_rules | `(tactic| dk_call) => `(tactic| with_reducible exact whitespaceOnly_dk)

theorem newline_dk : Dk newline Whatever := by
  unfold newline; dkgo <;> dkp
macro_rules | `(tactic| dk_call) => `(tactic| with_reducible exact newline_dk)

/-- A label has no mark. -/
def NoDoc (x : Option (Text × Span)) : Prop := ∀ y, x = some y → y.2.doc = none

theorem label_dk : Dk label NoDoc := by
  unfold label; dkgo
  all_goals (intro y hy; cases hy; try rfl)
macro_rules | `(tactic| dk_call) => `(tactic| with_reducible exact label_dk)

theorem endToken_dk : Dk endToken DocOk := by
  unfold endToken; dkgo <;> dkp
macro_rules | `(tactic| dk_call) => `(tactic| with_reducible exact endToken_dk)

theorem oneCharToken_dk : Dk oneCharToken DocOk := by
  unfold oneCharToken; dkgo <;> dkp
macro_rules | `(tactic| dk_call) => `(tactic| with_reducible exact oneCharToken_dk)

theorem onum_dk : Dk onumDnumLnum DocOk := by
  unfold onumDnumLnum; dkgo <;> dkp
macro_rules | `(tactic| dk_call) => `(tactic| with_reducible exact onum_dk)

theorem prefixedNum_dk {p : Text} {r : Nat} {f : Char → Bool} : Dk (prefixedNum p r f) DocOk := by
  unfold prefixedNum; dkgo <;> dkp
theorem hnum_dk : Dk hnum DocOk := prefixedNum_dk
theorem bnum_dk : Dk bnum DocOk := prefixedNum_dk
macro_rules | `(tactic| dk_call) => `(tactic| with_reducible first | exact hnum_dk | exact bnum_dk)

theorem matchVariable_dk : Dk matchVariable DocOk := by
  unfold matchVariable; dkgo <;> try dkp
  rename_i h
  exact .inl (h _ rfl)
macro_rules | `(tactic| dk_call) => `(tactic| with_reducible exact matchVariable_dk)

theorem escDone_dk {b : List Byte} : Dk (escDone b) Whatever := by
  unfold escDone; dkgo <;> dkp
macro_rules | `(tactic| dk_call) => `(tactic| with_reducible exact escDone_dk)

theorem strEscape_dk {b : List Byte} {sq : Bool} : Dk (strEscape b sq) Whatever := by
  unfold strEscape; dkgo <;> dkp
macro_rules | `(tactic| dk_call) => `(tactic| with_reducible exact strEscape_dk)

theorem returnTokens_dk {a b : TokSpan} {bytes : List Byte} {parts : List TokSpan} (ha : DocOk a) (hb : DocOk b)
    (hp : DocAll parts) : Dk (returnTokensFromParts a b bytes parts) DocOk := by
  constructor
  · intro t x t' ht h
    unfold returnTokensFromParts at h
    cases h
    refine ⟨ha, (hp.append ?_).append ht⟩
    split
    · exact .cons hb .nil
    · exact .cons (.plain _ _ _) (.cons hb .nil)
  · intro t x t' ht h
    unfold returnTokensFromParts at h
    cases h

theorem sqLoop_dk {bak : TState} : ∀ {fuel : Nat} {bytes : List Byte}, Dk (sqLoop bak fuel bytes) Whatever
  | 0, _ => Dk.noFuel
  | fuel + 1, bytes => by
    unfold sqLoop
    have ih := @sqLoop_dk bak fuel
    dkgo <;> first | dkp | exact ih
macro_rules | `(tactic| dk_call) => `(tactic| with_reducible exact sqLoop_dk)

theorem matchSq_dk : Dk matchSqString DocOk := by
  unfold matchSqString; dkgo <;> dkp
macro_rules | `(tactic| dk_call) => `(tactic| with_reducible exact matchSq_dk)

theorem flush_dk {bytes : List Byte} {parts : List TokSpan} {stop : Nat} (h : DocAll parts) :
    Dk (flushBytes bytes parts stop) DocAll := by
  unfold flushBytes; dkgo
  · exact h
  · exact h.append (.cons (.plain _ _ _) .nil)

section
variable {next : T TokSpan} (hn : Dk next DocOk)
include hn

theorem blockLoop_dk : ∀ {fuel : Nat} {acc : List TokSpan}, DocAll acc → Dk (blockLoop next fuel acc) DocAll
  | 0, _, _ => Dk.noFuel
  | fuel + 1, acc, ha => by
    constructor
    · intro t x t' ht h
      rw [blockLoop] at h
      dsimp only at h
      cases e : next t with
      | ok a t1 =>
        rw [e] at h
        obtain ⟨h1, h2⟩ := hn.ok t a t1 ht e
        exact (blockLoop_dk (ha.append (.cons h1 .nil))).ok t1 x t' h2 h
      | err y t1 => rw [e] at h; cases h; exact ⟨ha, hn.err t _ _ ht e⟩
      | panic p => rw [e] at h; cases h
      | oof => rw [e] at h; cases h
    · intro t x t' ht h
      rw [blockLoop] at h
      dsimp only at h
      cases e : next t with
      | ok a t1 =>
        rw [e] at h
        obtain ⟨h1, h2⟩ := hn.ok t a t1 ht e
        exact (blockLoop_dk (ha.append (.cons h1 .nil))).err t1 x t' h2 h
      | err y t1 => rw [e] at h; cases h
      | panic p => rw [e] at h; cases h
      | oof => rw [e] at h; cases h

theorem strBlock_dk {fuel : Nat} {bytes : List Byte} {parts : List TokSpan} {d : Bool} (h : DocAll parts) :
    Dk (strBlock next fuel bytes parts d) (fun x => DocAll x.2) := by
  unfold strBlock
  dkgo
  · refine Dk.bind (blockLoop_dk hn (.cons (.plain _ _ _) .nil)) ?_
    intro tokens ht
    dkgo
    · refine Dk.bind (flush_dk h) ?_
      intro parts hp
      dkgo
      exact hp.append ht
    · exact h
  · exact h

theorem strVariable_dk {fuel : Nat} {bytes : List Byte} {parts : List TokSpan} (h : DocAll parts) :
    Dk (strVariable next fuel bytes parts) (fun x => DocAll x.2) := by
  unfold strVariable
  dkgo
  · refine Dk.bind (flush_dk h) ?_
    intro parts hp
    refine Dk.bind (strBlock_dk hn hp) ?_
    intro y hy
    dkgo
    rename_i ts hts hk _ _
    refine DocAll.set hy ?_
    rcases hy.all ts (List.mem_of_getElem? hts) with h1 | ⟨-, h1 | ⟨c, h1⟩⟩
    · exact .inl h1
    · rw [h1] at hk; cases hk
    · rw [h1] at hk; cases hk
  all_goals first | exact h | skip
  all_goals refine Dk.bind (P := DocAll) ?_ ?_
  all_goals first
    | (dkgo <;> first | exact .nil | exact .cons (.plain _ _ _) (.cons (.plain _ _ _) .nil))
    | skip
  all_goals
    intro tmp ht
    dkgo
    refine Dk.bind (flush_dk h) ?_
    intro parts hp
    dkgo
    exact (hp.append (.cons (.plain _ _ _) .nil)).append ht

end

theorem dqAdvance_dk : Dk dqAdvance Whatever := by
  unfold dqAdvance; dkgo <;> dkp
macro_rules | `(tactic| dk_call) => `(tactic| with_reducible exact dqAdvance_dk)

section
variable {next : T TokSpan} (hn : Dk next DocOk)
include hn

theorem dqLoop_dk {bf : Nat} {bak : TState} : ∀ {fuel : Nat} {bytes : List Byte} {parts : List TokSpan}, DocAll parts →
    Dk (dqLoop next bf bak fuel bytes parts) (fun x => DocAll x.2)
  | 0, _, _, _ => Dk.noFuel
  | fuel + 1, bytes, parts, h => by
    unfold dqLoop
    have ih := @dqLoop_dk bf bak fuel
    dkgo
    all_goals first
      | exact ih h
      | exact h
      | exact Dk.bind (strVariable_dk hn h) fun x hx => ih hx
      | exact Dk.bind (strBlock_dk hn h) fun x hx => ih hx

theorem bqLoop_dk {bf : Nat} {bak : TState} : ∀ {fuel : Nat} {bytes : List Byte} {parts : List TokSpan}, DocAll parts →
    Dk (bqLoop next bf bak fuel bytes parts) (fun x => DocAll x.2)
  | 0, _, _, _ => Dk.noFuel
  | fuel + 1, bytes, parts, h => by
    unfold bqLoop
    have ih := @bqLoop_dk bf bak fuel
    dkgo
    all_goals first
      | exact ih h
      | exact h
      | exact Dk.bind (strVariable_dk hn h) fun x hx => ih hx
      | exact Dk.bind (strBlock_dk hn h) fun x hx => ih hx

theorem docLoop_dk {bf : Nat} {bak : TState} {nd : Bool} {tag : Text} : ∀ {fuel : Nat} {bytes : List Byte}
    {parts : List TokSpan}, DocAll parts → Dk (docLoop next bf bak nd tag fuel bytes parts) (fun x => DocAll x.2)
  | 0, _, _, _ => Dk.noFuel
  | fuel + 1, bytes, parts, h => by
    unfold docLoop
    have ih := @docLoop_dk bf bak nd tag fuel
    dkgo
    all_goals first
      | exact ih h
      | exact h
      | exact Dk.bind (strVariable_dk hn h) fun x hx => ih hx
      | exact Dk.bind (strBlock_dk hn h) fun x hx => ih hx

theorem matchDq_dk {bf : Nat} : Dk (matchDqString next bf) DocOk := by
  unfold matchDqString
  dkgo
  all_goals
    refine Dk.bind (dqLoop_dk hn .nil) ?_
    intro x hx
    dkgo
    exact returnTokens_dk (.plain _ _ _) (.plain _ _ _) hx

theorem matchBq_dk {bf : Nat} : Dk (matchBackquote next bf) DocOk := by
  unfold matchBackquote
  dkgo
  refine Dk.bind (bqLoop_dk hn .nil) ?_
  intro x hx
  dkgo
  exact returnTokens_dk (.plain _ _ _) (.plain _ _ _) hx

theorem docBody_dk {bf : Nat} {bak : TState} {nd : Bool} {tag : Text} : Dk (docBody next bf bak nd tag) DocOk := by
  unfold docBody
  refine Dk.bind Dk.input fun i _ => Dk.bind (docLoop_dk hn .nil) fun x hx => Dk.bind Dk.inputPos fun _ _ => ?_
  dkgo
  · dkp
  · exact returnTokens_dk (.plain _ _ _) (.plain _ _ _) hx

theorem docHeader_dk {bf : Nat} {bak : TState} : Dk (docHeader next bf bak) DocOk := by
  unfold docHeader
  dkgo
  all_goals
    refine Dk.bind (P := Whatever) (by dkgo <;> dkp) ?_
    intro ty _
    refine Dk.bind label_dk ?_
    intro _ _
    dkgo
    all_goals exact docBody_dk hn

theorem matchDoc_dk {bf : Nat} : Dk (matchHereNowDoc next bf) DocOk := by
  unfold matchHereNowDoc
  dkgo
  all_goals exact docHeader_dk hn

end

theorem commentDone_dk {old : Nat} {d : Bool} {c : Text} : Dk (commentDone old d c) DocOk := by
  unfold commentDone
  dkgo
  · exact .inr ⟨rfl, .inr ⟨c, rfl⟩⟩
  · exact .inl rfl
macro_rules | `(tactic| dk_call) => `(tactic| with_reducible exact commentDone_dk)

theorem lineComment_dk {old n : Nat} : Dk (lineComment old n) DocOk := by
  unfold lineComment; dkgo <;> dkp
macro_rules | `(tactic| dk_call) => `(tactic| with_reducible exact lineComment_dk)

theorem blockComment_dk {old n : Nat} {d : Bool} : Dk (blockComment old n d) DocOk := by
  unfold blockComment; dkgo <;> dkp
macro_rules | `(tactic| dk_call) => `(tactic| with_reducible exact blockComment_dk)

theorem matchComments_dk : Dk matchComments DocOk := by
  unfold matchComments; dkgo <;> dkp
macro_rules | `(tactic| dk_call) => `(tactic| with_reducible exact matchComments_dk)

theorem act_dk : ∀ {a : Act}, Dk a.run Whatever
  | .keep => by unfold Act.run; exact Dk.pure trivial
  | .set _ => by unfold Act.run; exact Dk.modSt
  | .push _ => by unfold Act.run; exact Dk.modSt
  | .pop => by unfold Act.run; exact popState_dk
macro_rules | `(tactic| dk_call) => `(tactic| with_reducible exact act_dk)

/-- A word of a table. -/
def Fixed (kw : Kw) (x : TokSpan) : Prop := x.tok = .k kw ∧ x.span.doc = none

theorem matchTok_dk {e : Entry} : Dk (matchTok e) (Fixed e.kw) := by
  unfold matchTok; dkgo
  exact ⟨rfl, rfl⟩
macro_rules | `(tactic| dk_call) => `(tactic| with_reducible exact matchTok_dk)

theorem matchFirst_dk : ∀ {l : List Entry}, Dk (matchFirst l) DocOk
  | [] => Dk.fail
  | _ :: _ => Dk.orElse (matchTok_dk.mono fun _ h => .inl h.2) matchFirst_dk
macro_rules | `(tactic| dk_call) => `(tactic| with_reducible exact matchFirst_dk)

theorem matchYield_dk : Dk matchYield DocOk := by
  unfold matchYield; dkgo <;> dkp
macro_rules | `(tactic| dk_call) => `(tactic| with_reducible exact matchYield_dk)

/-- Errors are dropped. -/
theorem attempt_dk {m : T TokSpan} (h : Dk m DocOk) : Dk (fun t =>
      match m t with
      | .ok a t' => .ok (some a) t'
      | .err _ t' => .ok none t'
      | .panic p => .panic p
      | .oof => .oof : T (Option TokSpan)) Whatever := by
  constructor
  · intro t x t' ht e
    cases hm : m t with
    | ok a t1 => rw [hm] at e; cases e; exact ⟨trivial, (h.ok t a t' ht hm).2⟩
    | err y t1 => rw [hm] at e; cases e; exact ⟨trivial, h.err t y t' ht hm⟩
    | panic p => rw [hm] at e; cases e
    | oof => rw [hm] at e; cases e
  · intro t x t' ht e
    cases hm : m t with
    | ok a t1 => rw [hm] at e; cases e
    | err y t1 => rw [hm] at e; cases e
    | panic p => rw [hm] at e; cases e
    | oof => rw [hm] at e; cases e

theorem matchCast_dk : Dk matchCast DocOk := by
  unfold matchCast
  dkgo
  refine Dk.bind (attempt_dk matchFirst_dk) ?_
  intro _ _
  dkgo <;> dkp
macro_rules | `(tactic| dk_call) => `(tactic| with_reducible exact matchCast_dk)

theorem matchCurlyClose_dk : Dk matchCurlyClose DocOk := by
  unfold matchCurlyClose
  dkgo
  rename_i h
  exact .inr ⟨rfl, .inl h.1⟩
macro_rules | `(tactic| dk_call) => `(tactic| with_reducible exact matchCurlyClose_dk)

theorem unknownChar_dk : Dk unknownChar DocOk := by
  unfold unknownChar; dkgo <;> dkp
macro_rules | `(tactic| dk_call) => `(tactic| with_reducible exact unknownChar_dk)

theorem other_dk : Dk inScriptingOtherToken DocOk := by
  unfold inScriptingOtherToken
  dkgo <;> dkp

theorem labelOrOther_dk {old : Nat} : Dk (labelOrOther old) DocOk := by
  unfold labelOrOther
  refine Dk.bind Dk.setPos fun _ _ => Dk.bind label_dk fun lbl hl => Dk.bind Dk.setPos fun _ _ => ?_
  constructor
  · intro t x t' ht h
    dsimp only at h
    cases e : inScriptingOtherToken t with
    | ok a t1 =>
      rw [e] at h
      obtain ⟨h1, h2⟩ := other_dk.ok t a t1 ht e
      cases lbl with
      | none => cases h; exact ⟨h1, h2⟩
      | some y =>
        obtain ⟨name, sp⟩ := y
        dsimp only at h
        split at h
        · cases h; exact ⟨h1, h2⟩
        · cases h; exact ⟨.inl (hl _ rfl), h2⟩
    | err y t1 =>
      rw [e] at h
      have h2 := other_dk.err t y t1 ht e
      cases lbl with
      | none => cases y <;> cases h
      | some z =>
        obtain ⟨name, sp⟩ := z
        cases h
        exact ⟨.inl (hl _ rfl), h2⟩
    | panic p => rw [e] at h; cases h
    | oof => rw [e] at h; cases h
  · intro t x t' ht h
    dsimp only at h
    cases e : inScriptingOtherToken t with
    | ok a t1 =>
      rw [e] at h
      obtain ⟨h1, h2⟩ := other_dk.ok t a t1 ht e
      cases lbl with
      | none => cases h
      | some y =>
        obtain ⟨name, sp⟩ := y
        dsimp only at h
        split at h <;> cases h
    | err y t1 =>
      rw [e] at h
      have h2 := other_dk.err t y t1 ht e
      cases lbl with
      | none => cases y <;> cases h <;> exact h2
      | some z =>
        obtain ⟨name, sp⟩ := z
        cases h
    | panic p => rw [e] at h; cases h
    | oof => rw [e] at h; cases h

theorem inScripting_dk {next : T TokSpan} {bf : Nat} (hn : Dk next DocOk) : Dk (inScriptingToken next bf) DocOk := by
  unfold inScriptingToken
  dkgo
  all_goals first
    | dkp
    | exact matchDoc_dk hn
    | exact matchDq_dk hn
    | exact matchBq_dk hn
    | exact labelOrOther_dk

theorem initialToken_dk : Dk initialToken DocOk := by
  unfold initialToken
  dkgo <;> dkp

theorem lookingFor_dk : Dk lookingForPropertyToken DocOk := by
  unfold lookingForPropertyToken
  dkgo <;> try dkp
  · rename_i h; exact .inl h.2
  · rename_i h _ _; exact .inl (h _ rfl)

theorem nextToken_dk : ∀ n, Dk (nextToken n) DocOk
  | 0 => Dk.noFuel
  | fuel + 1 => by
    have ih := nextToken_dk fuel
    have hq : Dk (do
            popState
            modSt fun s => { s with restart := true }
            nextToken fuel) DocOk := by
      dkgo
      exact ih
    have step : ∀ (s : LexState) (m : T TokSpan), s ≠ .emitQueue → Dk m DocOk → ∀ t : Tz, t.st.state = s → DocAll t.queue →
        (∀ x t', (match s, m t with
          | .emitQueue, r => r
          | _, .err .none t' =>
            if t'.st.restart then nextToken fuel { t' with st := { t'.st with restart := false } }
            else .err .none t'
          | _, r => r : TR TokSpan) = .ok x t' → DocOk x ∧ DocAll t'.queue) ∧
        (∀ e t', (match s, m t with
          | .emitQueue, r => r
          | _, .err .none t' =>
            if t'.st.restart then nextToken fuel { t' with st := { t'.st with restart := false } }
            else .err .none t'
          | _, r => r : TR TokSpan) = .err e t' → DocAll t'.queue) := by
      intro s m hs hm t _ ht
      cases e : m t with
      | ok a t1 =>
        obtain ⟨h1, h2⟩ := hm.ok t a t1 ht e
        cases s <;> first | exact absurd rfl hs | exact ⟨fun x t' h => by cases h; (exact ⟨h1, h2⟩), fun e t' h => by cases h⟩
      | err y t1 =>
        have h2 := hm.err t y t1 ht e
        cases y with
        | none =>
          have h3 : (∀ x t', (if t1.st.restart then nextToken fuel { t1 with st := { t1.st with restart := false } }
              else .err .none t1) = .ok x t' → DocOk x ∧ DocAll t'.queue) ∧
              (∀ e t', (if t1.st.restart then nextToken fuel { t1 with st := { t1.st with restart := false } }
              else .err .none t1) = .err e t' → DocAll t'.queue) := by
            split
            · exact ⟨fun x t' h => ih.ok { t1 with st := { t1.st with restart := false } } x t' h2 h,
                fun e t' h => ih.err { t1 with st := { t1.st with restart := false } } e t' h2 h⟩
            · exact ⟨fun x t' h => by (cases h), fun e t' h => by cases h; exact h2⟩
          cases s <;> first | exact absurd rfl hs | exact h3
        | unterminated w sp =>
          cases s <;> first | exact absurd rfl hs | exact ⟨fun x t' h => by (cases h), fun e t' h => by cases h; exact h2⟩
        | unknownCharacter sp =>
          cases s <;> first | exact absurd rfl hs | exact ⟨fun x t' h => by (cases h), fun e t' h => by cases h; exact h2⟩
      | panic p => cases s <;> first | exact absurd rfl hs | exact ⟨fun x t' h => by (cases h), fun e t' h => by cases h⟩
      | oof => cases s <;> first | exact absurd rfl hs | exact ⟨fun x t' h => by (cases h), fun e t' h => by cases h⟩
    have both : ∀ t : Tz, DocAll t.queue → (∀ x t', nextToken (fuel + 1) t = .ok x t' → DocOk x ∧ DocAll t'.queue) ∧
        (∀ e t', nextToken (fuel + 1) t = .err e t' → DocAll t'.queue) := by
      intro t ht
      unfold nextToken
      cases hs : t.st.state with
      | done => exact step .done (fail .none) nofun Dk.fail t hs ht
      | doNothing => exact step .doNothing (fail .none) nofun Dk.fail t hs ht
      | initial => exact step .initial _ nofun initialToken_dk t hs ht
      | inScripting => exact step .inScripting _ nofun (inScripting_dk ih) t hs ht
      | lookingForProperty => exact step .lookingForProperty _ nofun lookingFor_dk t hs ht
      | emitQueue =>
        dsimp only
        cases hc : t.queue with
        | nil => exact ⟨fun x t' h => hq.ok t x t' ht h, fun e t' h => hq.err t e t' ht h⟩
        | cons y ys =>
          rw [hc] at ht
          exact ⟨fun x t' h => by
            cases h
            exact ⟨ht.all y (List.mem_cons_self ..), ⟨fun z hz => ht.all z (List.mem_cons_of_mem _ hz)⟩⟩, fun e t' h => by cases h⟩
    exact ⟨fun t a t' ht h => (both t ht).1 a t' h, fun t e t' ht h => (both t ht).2 e t' h⟩

end Pico
