import Verif.Lemmas.SndVar
/-!
# Strings and scalars: what they are derived from
-/
namespace Pico
open P

variable {toks : List TokSpan} {r : Rec}

/-- What the loop over the parts of a string has read. -/
def EncS (us : List Token) (s : Encaps) : Prop :=
  ∀ vs ps, D .parts vs ps → ∃ ps', D .parts (us ++ vs) ps' ∧ leaves [] ps' = eraseExprs s.parts ++ leaves s.str ps

theorem flush_snd {us : List Token} {s : Encaps} (h : EncS us s) : PrE toks s.flush
    (fun _ vs s' => vs = [] ∧ s'.str = [] ∧ ∀ vs ps e, D .parts vs (.inr e :: ps) →
      ∃ ps', D .parts (us ++ vs) ps' ∧ leaves [] ps' = eraseExprs s'.parts ++ e :: leaves [] ps) (fun _ => True) := by
  refine PrE.intro fun p => ?_
  unfold Encaps.flush
  obtain ⟨str, parts, st, ep⟩ := s
  cases str with
  | nil =>
    refine TgS.ret ⟨rfl, rfl, fun vs ps e h' => ?_⟩
    simpa [leaves] using h _ _ h'
  | cons c str =>
    simp only [List.isEmpty_cons, Bool.false_eq_true, if_false]
    cases st with
    | none => exact TgS.abort _
    | some st =>
      refine TgS.ret ⟨rfl, rfl, fun vs ps e h' => ?_⟩
      simpa [leaves, eraseExprs_append, eraseExprs, Expr.erase, ExprK.erase] using h _ _ h'

/-- The parts behind another one. -/
theorem EncS.of {us vs : List Token} {s' : Encaps} {e : Expr} {parts : List Expr} (hs : s'.str = []) (hp : eraseExprs s'.parts = eraseExprs parts ++ [e])
    (h : ∀ vs ps e, D .parts vs (.inr e :: ps) →
      ∃ ps', D .parts (us ++ vs) ps' ∧ leaves [] ps' = eraseExprs parts ++ e :: leaves [] ps)
    (hd : ∀ ws ps, D .parts ws ps → D .parts (vs ++ ws) (.inr e :: ps)) : EncS (us ++ vs) s' := by
  intro ws ps h'
  obtain ⟨ps', h1, h2⟩ := h _ _ _ (hd _ _ h')
  exact ⟨ps', by simpa using h1, by rw [h2, hp, hs]; simp⟩

theorem encapsStep_snd (hr : RecG toks r) {p0 p : Nat} {us : List Token} {s : Encaps} (h : EncS us s) :
    TgS toks p0 us p (encapsStep r s) (Sg toks p0 fun _ us x => match x with
      | .inl s' => EncS us s'
      | .inr s' => ∃ ps, D .parts us ps ∧ leaves [] ps = eraseExprs s'.parts ++ leaves s'.str []) (fun _ => True) := by
  unfold encapsStep
  refine TgS.bind (TgS.eatEncapsB (fun x sp => ?_) ?_)
  · refine TgS.pure fun vs ps h' => ?_
    obtain ⟨ps', h1, h2⟩ := h _ _ (.parts_text x h')
    exact ⟨ps', by simpa using h1, h2⟩
  dsimp only
  refine TgS.bind (TgS.eatB (fun t => ?_) fun _ => ?_)
  · dsimp only
    refine TgS.bind (TgS.callB (flush_snd h) (by sd_b) ?_)
    rintro s1 q _ ⟨rfl, h1, h2⟩
    unfold encapsDollar
    refine TgS.bind (TgS.bind (TgS.attemptB parseIdentifier_snd ?_ ?_))
    · rintro ⟨name, sp⟩ q _ ⟨t, rfl, hi⟩
      dsimp only
      refine TgS.bind (TgS.callB (parseVariable_base_snd hr _) (by sd_b) ?_)
      intro e q vs h'
      refine TgS.bind (TgS.expectB (fun _ => ?_) (by sd_b))
      refine TgS.pureB (TgS.pure ?_)
      simp only [List.append_assoc, List.append_nil]
      refine EncS.of (e := e.erase) h1 (by simp [eraseExprs_append, eraseExprs, erase_kind]) h2 fun ws ps h3 => ?_
      simpa using DerivesX.parts_dollar hi h' h3
    · rintro _ q _ rfl
      dsimp only
      refine TgS.bind (TgS.callB hr.ex0 (by sd_b) ?_)
      rintro e q vs ⟨_, h'⟩
      refine TgS.bind (TgS.expectB (fun _ => ?_) (by sd_b))
      refine TgS.pureB (TgS.pure ?_)
      simp only [List.append_assoc, List.append_nil]
      refine EncS.of (e := bare (.var (.fetch e.erase))) h1
        (by simp [eraseExprs_append, eraseExprs, Expr.erase, ExprK.erase, Variable.erase]) h2 fun ws ps h3 => ?_
      simpa using DerivesX.x_fetch rfl h' h3
  dsimp only
  refine TgS.bind (TgS.eatB (fun t => ?_) fun _ => ?_)
  · dsimp only
    refine TgS.bind (TgS.callB (flush_snd h) (by sd_b) ?_)
    rintro s1 q _ ⟨rfl, h1, h2⟩
    refine TgS.bind (TgS.callB hr.ex0 (by sd_b) ?_)
    rintro e q vs ⟨_, h'⟩
    refine TgS.bind (TgS.expectB (fun _ => ?_) (by sd_b))
    refine TgS.pure ?_
    simp only [List.append_assoc, List.append_nil]
    refine EncS.of (e := e.erase) h1 (by simp [eraseExprs_append, eraseExprs]) h2 fun ws ps h3 => ?_
    simpa using DerivesX.parts_brace h' h3
  dsimp only
  refine TgS.bind (TgS.attemptSB (parseVariable_snd hr) ?_ ?_)
  · intro e q vs h' _
    dsimp only
    refine TgS.bind (TgS.callB (flush_snd h) (by sd_b) ?_)
    rintro s1 q _ ⟨rfl, h1, h2⟩
    refine TgS.pure ?_
    simp only [List.append_nil]
    refine EncS.of (e := e.erase) h1 (by simp [eraseExprs_append, eraseExprs]) h2 fun ws ps h3 => ?_
    exact .x_part rfl h' h3
  · intro _ q vs _ hs
    refine TgS.pure ?_
    simpa using h _ _ (.x_parts rfl vs hs.nn.noStray)

theorem parseEncapsList_snd (hr : RecG toks r) : Pr toks (parseEncapsList r)
    (fun _ us e' => ∃ ps e es, D .parts us ps ∧ leaves [] ps = e :: es ∧ e'.erase = concatAll e es) := by
  refine PrE.intro fun p => ?_
  unfold parseEncapsList
  refine TgS.bind (TgS.callB (A := fun _ us s => ∃ ps, D .parts us ps ∧ leaves [] ps = eraseExprs s.parts ++ leaves s.str [])
    (B' := fun _ => True) ?_ (by sd_b) ?_)
  · refine PrE.intro fun p => ?_
    refine TgS.loop (fun _ us s => EncS us s) ?_ ?_
    · intro vs ps h
      exact ⟨ps, h, by simp [eraseExprs]⟩
    · intro s us p h h1
      refine (encapsStep_snd hr h h1).imp ?_ (fun _ h => h)
      rintro (s' | s') q ⟨us, h2, h3⟩ <;> exact ⟨us, h2, h3⟩
  · rintro ⟨str, parts, st, ep⟩ q us ⟨ps, h1, h2⟩
    dsimp only at h2 ⊢
    cases str with
    | nil =>
      simp only [List.isEmpty_nil, if_true]
      cases hl : parts.getLast? with
      | none =>
        dsimp only
        exact TgS.bind (TgS.eatEncapsB (fun _ _ => TgS.abort _) (TgS.errHere _ (by sd_b)))
      | some last =>
        dsimp only
        obtain ⟨init, rfl⟩ : ∃ init, parts = init ++ [last] := by
          rcases List.eq_nil_or_concat parts with h0 | ⟨i, z, h0⟩
          · subst h0; cases hl
          · subst h0
            simp at hl
            exact ⟨i, by simp [hl]⟩
        have hne : ∃ e es, eraseExprs (init ++ [last]) = e :: es := by
          cases init <;> exact ⟨_, _, rfl⟩
        obtain ⟨e, es, he⟩ := hne
        refine TgS.pure ⟨ps, e, es, by simpa using h1, by simpa [leaves, he] using h2, ?_⟩
        rw [List.dropLast_concat]
        exact erase_concatParts _ _ _ _ he
    | cons c str =>
      simp only [List.isEmpty_cons, Bool.false_eq_true, if_false]
      cases st with
      | none => exact TgS.abort _
      | some st =>
        dsimp only
        have hne : ∃ e es, eraseExprs (parts ++ [Expr.mk (.str (c :: str)) (mkSpan st ep)]) = e :: es := by
          cases parts <;> exact ⟨_, _, rfl⟩
        obtain ⟨e, es, he⟩ := hne
        refine TgS.pure ⟨ps, e, es, by simpa using h1, ?_, erase_concatParts _ _ _ _ he⟩
        rw [h2, ← he]
        simp [leaves, eraseExprs_append, eraseExprs, Expr.erase, ExprK.erase]

/-! ## Scalars -/

theorem parseConstant_snd : Pr toks parseConstant (fun _ us e => ∀ p, D (.expr p prefixLevel) us e.erase) := by
  refine PrE.intro fun p => ?_
  unfold parseConstant
  refine TgS.bind (TgS.callB parseClassName_snd (by sd_b) ?_)
  rintro ⟨nk, nsp⟩ q us ⟨c, hc, he⟩
  cases nk <;> try (cases he; done)
  cases he
  refine TgS.bind (TgS.eatB (fun _ => ?_) fun _ => ?_)
  · dsimp only
    refine TgS.bind (TgS.callB parseIdentifierAsExpr_snd (by sd_b) ?_)
    rintro m q _ ⟨t, m', rfl, hi, hm⟩
    refine TgS.pure fun p => ?_
    simp only [Expr.erase, ExprK.erase, eraseExprs]
    rw [erase_resolveConst, hm]
    simpa using DerivesX.e_classConst hc hi
  · refine TgS.pure fun p => ?_
    rw [erase_resolveConst]
    exact .e_name hc

theorem Seg.past {p0 p : Nat} {ts : List Token} (h : Seg toks p0 p ts) (hn : toks[p]? = none) : Seg toks p0 (p + 1) ts := by
  refine ⟨Nat.le_succ_of_le h.1, ?_, h.nn⟩
  rw [← h.2.1]
  have := List.getElem?_eq_none_iff.1 hn
  unfold upto
  rw [List.take_of_length_le (by omega), List.take_of_length_le (by omega)]

theorem TgS.pastB {β : Type} {p0 p : Nat} {ts : List Token} {B : List Token → Prop} {f : Unit → P β} {Q : β → Nat → Prop}
    (hn : toks[p]? = none) (h : TgS toks p0 ts (p + 1) (f ()) Q B) : TgS toks p0 ts p (P.setPos (p + 1)) (Ct toks p0 B f Q) B :=
  fun h1 => h (h1.past hn)

/-- A token that is looked at only. -/
theorem TgS.skipB {γ : Type} {p0 p old q : Nat} {ts us : List Token} {B : List Token → Prop} {g : Unit → P γ} {f : Unit → P γ}
    {Q : γ → Nat → Prop} (hf : f () = (P.setPos old >>= g)) (hs : Seg toks p0 old us) (h : TgS toks p0 us old (g ()) Q B) :
    TgS toks p0 ts p (P.setPos q) (Ct toks p0 B f Q) B := by
  intro _
  show GoS toks q (f ()) Q _
  rw [hf]
  exact GoS.bind (h hs)

theorem closes_cases {t : Token} (h : ¬ ∀ b : Bracket, b.closes t = false) :
    t = .k .ParenthesesClose ∨ t = .k .SquareBracketClose ∨ t = .k .CurlyBracesClose := by
  refine Classical.byContradiction fun h' => h fun b => ?_
  simp only [not_or] at h'
  unfold Bracket.closes
  split
  · exact absurd rfl h'.1
  · exact absurd rfl h'.2.1
  · exact absurd rfl h'.2.2
  · rfl

theorem parseScalar_snd (hr : RecG toks r) : Pr toks (parseScalar r) (fun _ us e => ∀ p, D (.expr p prefixLevel) us e.erase) := by
  refine PrE.intro fun p => ?_
  unfold parseScalar
  refine TgS.bind (TgS.peekB fun x hx => ?_)
  refine TgS.bind (TgS.getPosB fun hs => ?_)
  cases x with
  | none =>
    exact TgS.bind (TgS.pastB hx (TgS.errHere _ (by sd_b)))
  | some ts =>
    obtain ⟨tok, sp⟩ := ts
    have fb : TgS toks p [] p (do
        match ← attempt (parseDereferencableScalar r) with
        | .ok e => return e
        | .error _ => parseConstant) (Sg toks p fun _ us (e : Expr) => ∀ p, D (.expr p prefixLevel) us e.erase) Nn := by
      refine TgS.bind (TgS.attemptSB (parseDereferencableScalar_snd hr) ?_ ?_)
      · intro e q us h _
        refine TgS.pure fun p => ?_
        exact .e_var (by simpa using h [] _ (.a_nil _ _))
      · intro _ q us h hs
        refine TgS.callE parseConstant_snd (by sd_b) ?_
        intro e q vs h' p
        rcases h with rfl | ⟨t, ws, rfl, ht⟩
        · exact h' p
        · simpa using DerivesX.x_call rfl ws hs.nn.noStray ht (h' p)
    by_cases hc : ∀ b : Bracket, b.closes tok = false
    · refine TgS.bind (TgS.takeB hx ?_ (fun h => h.app (.one hc)))
      dsimp only
      split
      · exact TgS.pure fun p => .e_int _
      · exact TgS.pure fun p => .e_double _
      · exact TgS.pure fun p => .e_magic rfl
      · exact TgS.pure fun p => .e_magic rfl
      · exact TgS.pure fun p => .e_magic rfl
      · exact TgS.pure fun p => .e_magic rfl
      · exact TgS.pure fun p => .e_magic rfl
      · exact TgS.pure fun p => .e_magic rfl
      · exact TgS.pure fun p => .e_magic rfl
      · refine TgS.bind (TgS.eatB (fun _ => ?_) fun _ => ?_)
        · exact TgS.pure fun p => .e_emptyString
        · refine TgS.bind (TgS.callB (parseEncapsList_snd hr) (by sd_b) ?_)
          rintro e' q us ⟨ps, e, es, h1, h2, h3⟩
          refine TgS.bind (TgS.expectB (fun _ => ?_) (by sd_b))
          refine TgS.pure fun p => ?_
          rw [erase_kind, h3]
          simpa using DerivesX.e_string h1 h2
      · refine TgS.bind (TgS.callB (parseEncapsList_snd hr) (by sd_b) ?_)
        rintro e' q us ⟨ps, e, es, h1, h2, h3⟩
        refine TgS.bind (TgS.expectB (fun _ => ?_) (by sd_b))
        refine TgS.pure fun p => ?_
        rw [erase_kind, h3]
        simpa using DerivesX.e_heredoc h1 h2
      · exact TgS.bind (TgS.backB hs fb)
    · rcases closes_cases hc with rfl | rfl | rfl <;> exact TgS.bind (TgS.skipB rfl hs fb)

end Pico
