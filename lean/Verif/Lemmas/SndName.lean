import Verif.Lemmas.SndBase
import Verif.Lemmas.GramBase
import Verif.Lemmas.ReadExpr
/-!
# Names and identifiers: the tokens they are made of
-/
namespace Pico
open P

variable {toks : List TokSpan}

def fragToks (ns : List Text) : List Token := ns.flatMap fun x => [.string x, .k .NsSeparator]

theorem nameToks_frag (ns : List Text) (id : Text) : nameToks ns id = fragToks ns ++ [.string id] := by
  induction ns with
  | nil => rfl
  | cons x ns ih => simp [nameToks, ih, fragToks]

theorem fragToks_snoc (ns : List Text) (x : Text) : fragToks (ns ++ [x]) = fragToks ns ++ [.string x, .k .NsSeparator] := by
  simp [fragToks]

theorem namespaceFragments_at (p : Nat) : TgS toks p [] p namespaceFragments
    (Sg toks p fun _ us fr => ∃ ns id, fr.map Prod.fst = ns ++ [id] ∧ us = nameToks ns id)
    (fun us => us = [] ∧ ∀ s, nextTok toks p ≠ some (.string s)) := by
  unfold namespaceFragments
  refine TgS.loop (fun q us fr => us = fragToks (fr.map Prod.fst) ∧ (fr = [] ∧ q = p ∨ ∃ s, nextTok toks q = some (.string s))) ⟨rfl, .inl ⟨rfl, rfl⟩⟩ ?_
  rintro fr ts q ⟨rfl, hn⟩
  refine TgS.bind (TgS.eatStringB ?_ ?_)
  · intro s sp
    dsimp only
    refine TgS.bind (TgS.getPosB fun hs => ?_)
    refine TgS.bind (TgS.eatB (fun t => ?_) (fun _ => ?_))
    · dsimp only
      refine TgS.seg fun hs2 => ?_
      refine TgS.bind (TgS.eatStringB ?_ ?_)
      · intro s2 sp2
        dsimp only
        refine TgS.bind (TgS.getPosB fun hs3 => ?_)
        refine TgS.bind (TgS.backB (old := q + 1 + 1 + 1 - 1) hs2 ?_)
        refine TgS.pure ⟨by simp [fragToks_snoc], .inr ?_⟩
        have h4 : Seg toks (q + 1 + 1) (q + 1 + 1 + 1) [.string s2] := by
          refine ⟨by omega, ?_, .one fun b => by cases b <;> rfl⟩
          rw [hs3.2.1, hs2.2.1]; simp
        exact ⟨_, h4.head⟩
      · intro _
        dsimp only
        refine TgS.bind (TgS.backB hs ?_)
        exact TgS.pure ⟨fr.map Prod.fst, s, by simp, by rw [nameToks_frag]⟩
    · dsimp only
      exact TgS.pure ⟨fr.map Prod.fst, s, by simp, by rw [nameToks_frag]⟩
  · intro h0
    dsimp only
    rcases hn with ⟨rfl, rfl⟩ | ⟨s, hs⟩
    · exact TgS.errHere _ fun _ => ⟨rfl, h0⟩
    · exact absurd hs (h0 s)

theorem parseNamespaceName_sndAt (p : Nat) : TgS toks p [] p parseNamespaceName
    (Sg toks p fun _ us x => ∃ ns id, us = nameToks ns id ∧ x.1 = qualPath false ns id)
    (fun us => us = [] ∧ ∀ s, nextTok toks p ≠ some (.string s)) := by
  unfold parseNamespaceName
  refine TgS.bind (TgS.callAtB (namespaceFragments_at p) (fun _ h _ => h) ?_)
  rintro fr q us ⟨ns, id, h1, rfl⟩
  have hinit : fr.dropLast.map Prod.fst = ns := by
    rw [List.map_dropLast, h1]; simp
  have hlast : fr.getLast?.map Prod.fst = some id := by
    rw [← List.getLast?_map, h1]; simp
  cases hl : fr.getLast? with
  | none => rw [hl] at hlast; cases hlast
  | some last =>
    cases hh : fr.head? with
    | none => rw [List.head?_eq_none_iff.1 hh] at hl; cases hl
    | some first =>
      rw [hl] at hlast
      have hid : last.1 = id := by simpa using hlast
      dsimp only
      rw [hinit, hid]
      refine TgS.pure ⟨ns, id, by simp, ?_⟩
      cases ns with
      | nil => simp [qualPath, Path.identifier]
      | cons x ns => simp [qualPath, joinNs_eq]

theorem parseNamespaceName_snd : PrE toks parseNamespaceName
    (fun _ us x => ∃ ns id, us = nameToks ns id ∧ x.1 = qualPath false ns id) (fun us => us = []) := fun p =>
  (parseNamespaceName_sndAt p (Seg.nil p)).imp (fun _ _ h => h) fun _ ⟨us, h1, h2, _⟩ => ⟨us, h1, h2⟩

/-- The tokens of a name. -/
def NameS (us : List Token) (x : Path) : Prop := ∃ abs ns id, us = qualToks abs ns id ∧ x = qualPath abs ns id

theorem qualPath_abs (ns : List Text) (id : Text) (abs : Bool) : { qualPath false ns id with isAbsolute := abs } = qualPath abs ns id := rfl

theorem parseName_snd : PrE toks parseName (fun _ us x => NameS us x.1) (fun us => us = [] ∨ us = [.k .NsSeparator]) := by
  refine PrE.intro fun p => ?_
  unfold parseName
  refine TgS.bind (TgS.eatsB ?_ fun _ => ?_)
  · refine TgS.bind (TgS.callB parseNamespaceName_snd (by rintro _ rfl; simp) ?_)
    rintro ⟨path, sp⟩ q us ⟨ns, id, rfl, h⟩
    cases h
    sd
    exact ⟨true, ns, id, rfl, rfl⟩
  · refine TgS.bind (TgS.callB parseNamespaceName_snd (by rintro _ rfl; simp) ?_)
    rintro ⟨path, sp⟩ q us ⟨ns, id, rfl, h⟩
    cases h
    sd
    exact ⟨false, ns, id, rfl, rfl⟩

theorem parseNameAsExpr_snd : PrE toks parseNameAsExpr
    (fun _ us e => ∃ x, NameS us x ∧ e.erase = bare (.path x)) (fun us => us = [] ∨ us = [.k .NsSeparator]) := by
  refine PrE.intro fun p => ?_
  unfold parseNameAsExpr
  refine TgS.bind (TgS.callB parseName_snd (by simp) ?_)
  rintro ⟨path, sp⟩ q us h
  sd
  exact ⟨path, h, rfl⟩

theorem NameS.class {us : List Token} {x : Path} (h : NameS us x) : ClassName us x := by
  obtain ⟨abs, ns, id, rfl, rfl⟩ := h
  exact .qual abs ns id

theorem parseNameList_snd : Pr toks parseNameList (fun _ us x => NameList us x) := by
  refine PrE.intro fun p => ?_
  unfold parseNameList
  refine TgS.loop (fun _ us x => ∀ vs ys, NameList vs ys → NameList (us ++ vs) (x ++ ys)) (fun _ _ h => h) ?_
  rintro fr ts q hI
  refine TgS.bind (TgS.callB parseName_snd (by sd_b) ?_)
  rintro ⟨path, sp⟩ q us ⟨abs, ns, id, rfl, h⟩
  have h : path = qualPath abs ns id := h
  subst h
  sd
  · intro vs ys h
    simpa using hI _ _ (.cons abs ns id h)
  · exact hI _ _ (.one abs ns id)

/-- `static` or a name; an error leaves at most a separator behind, and then neither `static` nor a name follows. -/
theorem parseClassName_snd : PrE toks parseClassName
    (fun _ us e => ∃ x, ClassName us x ∧ e.erase = bare (.path x)) (fun us => us = [] ∨ us = [.k .NsSeparator]) := by
  refine PrE.intro fun p => ?_
  unfold parseClassName
  refine TgS.bind (TgS.eatB (fun _ => ?_) fun _ => ?_)
  · sd
    exact ⟨_, .static, rfl⟩
  · refine TgS.callE parseNameAsExpr_snd (by simp) ?_
    rintro e q us ⟨x, h, h'⟩
    exact ⟨x, h.class, h'⟩

theorem parseIdentifier_snd : PrE toks parseIdentifier (fun _ us x => ∃ t, us = [t] ∧ Ident t x.1) (fun us => us = []) := by
  refine PrE.intro fun p => ?_
  unfold parseIdentifier
  refine TgS.bind (TgS.peekB fun x hx => ?_)
  split
  · refine TgS.bind (TgS.getPosB fun _ => ?_)
    refine TgS.bind (TgS.takeB hx ?_)
    exact TgS.pure ⟨_, rfl, .word _⟩
  · rename_i k sp
    split
    · rename_i hk
      refine TgS.bind (TgS.getPosB fun _ => ?_)
      refine TgS.bind (TgS.takeB hx ?_ fun h => h.app (.one fun b => ?_))
      rotate_left
      · revert hk; cases k <;> cases b <;> first | (intro _; rfl) | (intro h; cases h)
      cases hs : k.repr? with
      | none => exact TgS.abort _
      | some s => exact TgS.pure ⟨_, rfl, .reserved _ _ (memberWords_all _ hk _ hs)⟩
    · exact TgS.errHere _ fun _ => rfl
  · exact TgS.errHere _ fun _ => rfl

theorem parseIdentifierAsExpr_snd : PrE toks parseIdentifierAsExpr
    (fun _ us e => ∃ t m, us = [t] ∧ Ident t m ∧ e.erase = bare (.path ⟨false, none, m⟩)) (fun us => us = []) := by
  refine PrE.intro fun p => ?_
  unfold parseIdentifierAsExpr
  refine TgS.bind (TgS.callB parseIdentifier_snd (by simp) ?_)
  rintro ⟨m, sp⟩ q us ⟨t, rfl, h⟩
  exact TgS.pure ⟨t, m, by simp, h, rfl⟩

theorem parseSimpleVariable_snd : PrE toks parseSimpleVariable (fun _ us x => ∃ n, us = [.variable n] ∧ x.1 = .name n) (fun us => us = []) := by
  refine PrE.intro fun p => ?_
  unfold parseSimpleVariable
  refine TgS.bind (TgS.eatB (fun _ => TgS.abort _) fun _ => ?_)
  refine TgS.bind (TgS.eatVariableB (fun n sp => ?_) fun _ => ?_)
  · exact TgS.pure ⟨n, by simp, rfl⟩
  · exact TgS.errHere _ fun _ => rfl

theorem parseSimpleVariableExpr_snd : PrE toks parseSimpleVariableExpr
    (fun _ us e => ∃ n, us = [.variable n] ∧ e.erase = bare (.var (.name n))) (fun us => us = []) := by
  refine PrE.intro fun p => ?_
  unfold parseSimpleVariableExpr
  refine TgS.bind (TgS.callB parseSimpleVariable_snd (by simp) ?_)
  rintro ⟨v, sp⟩ q us ⟨n, rfl, h⟩
  cases h
  exact TgS.pure ⟨n, by simp, rfl⟩

end Pico
