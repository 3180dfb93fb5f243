import Verif.Lemmas.GoStr
import Verif.Lemmas.LexSpec
/-! # The scanners do not fail where a piece stands -/
namespace Pico
open T

/-- A piece, or the close tag, stands here. -/
def Stands (i : Text) : Prop := (∃ w ks r, i = w ++ r ∧ Scrap w ks r) ∨ c!"?>" <+: i

/-- The scanner reads something or reports that there is nothing for it. -/
def Go (m : T TokSpan) (t : Tz) : Prop := Safe m t (fun _ _ => True) (fun e _ => e = .none)

/-- The same, and `G` is the case if there is nothing. -/
def GoG (G : Prop) (m : T TokSpan) (t : Tz) : Prop := Safe m t (fun _ _ => True) (fun e _ => e = .none ∧ G)

section
variable {t : Tz}

theorem chainG' {m n : T TokSpan} {F G : Prop} {Q : TokSpan → Tz → Prop} {E : SyntaxErr → Tz → Prop} (hm : MatchL F m t) (hg : GoG G m t)
    (hQ : ∀ x t', StepM t x t' → Q x t') (hn : F → G → Safe n t Q E) : Safe (m <||> n) t Q E :=
  Safe.orElse ((hg.and hm).cons (fun x t' h => hQ x t' h.2) fun e t' h => ⟨fun he => by
    obtain ⟨h1, h2⟩ := h.2 he
    rw [h1]
    exact hn h2 h.1.2, fun he => absurd h.1.1 he⟩)

theorem chainG {m n : T TokSpan} {F : Prop} {Q : TokSpan → Tz → Prop} {E : SyntaxErr → Tz → Prop} (hm : MatchL F m t) (hg : Go m t)
    (hQ : ∀ x t', StepM t x t' → Q x t') (hn : F → Safe n t Q E) : Safe (m <||> n) t Q E :=
  Safe.orElse ((hg.and hm).cons (fun x t' h => hQ x t' h.2) fun e t' h => ⟨fun he => by
    obtain ⟨h1, h2⟩ := h.2 he
    rw [h1]
    exact hn h2, fun he => absurd h.1 he⟩)

theorem Stands.form {i : Text} (h : Stands i) (hn : ∀ r, i ≠ '?' :: r) : ∃ w ks r, i = w ++ r ∧ Scrap w ks r ∧ Form w ks r (lead i) := by
  rcases h with ⟨w, ks, r, rfl, h⟩ | ⟨q, rfl⟩
  · exact ⟨w, ks, r, rfl, h, h.form⟩
  · exact absurd rfl (hn ('>' :: q))

theorem Safe.go {m : T TokSpan} (h : Safe m t (fun _ _ => True) (fun _ _ => False)) : Go m t := h.cons (fun _ _ h => h) (fun _ _ h => h.elim)

theorem Stands.short {i r : Text} {q : Char} (h : Stands i) (hq : q = '\'' ∨ q = '"' ∨ q = '`') (hl : byteLen i < 2) : i ≠ q :: r := by
  rintro rfl
  obtain ⟨w, ks, r', e, _, hf⟩ := h.form (fun r e => by injection e with e; subst e; simp at hq)
  have := length_le_byteLen (q :: r)
  rw [List.length_cons] at this
  have hr : r = [] := List.length_eq_zero_iff.1 (by omega)
  subst hr
  rcases hq with rfl | rfl | rfl
  · obtain ⟨p, fs, k, rfl, hp, _⟩ := hf
    have := congrArg List.length e
    simp at this
    omega
  · obtain ⟨p, fs, k, rfl, hp, _⟩ := hf
    have := congrArg List.length e
    simp at this
    omega
  · obtain ⟨fs, k, rfl, hp, _⟩ := hf
    have := congrArg List.length e
    simp at this

theorem Stands.notShort {i : Text} {q : Char} (h : Stands i) (hq : q = '\'' ∨ q = '"' ∨ q = '`') (hl : byteLen i < 2) : ¬ [q] <+: i := by
  rintro ⟨r, e⟩
  exact h.short hq hl e.symm

/-! ### Strings -/

theorem go_sqString {i : Text} (hi : At t i) (ha : Stands i) : GoG (¬ c!"'" <+: i) matchSqString t := by
  unfold GoG matchSqString
  refine .bind (sf_input hi ?_)
  refine .ite (fun h => ⟨rfl, ha.notShort (.inl rfl) h⟩) fun _ => ?_
  refine .bind (m := getSt) (.of_ok rfl ?_)
  dsimp only
  have body : ∀ u fs r, At u (fragSrc fs ++ (c!"'" ++ r)) → FragsOk .single fs (c!"'" ++ r) → Safe (do
      let bytes ← sqLoop t.st (i.length + 1) []
      let p ← inputPos
      return (⟨bytesToken bytes, mkSpan t.st.srcPos p⟩ : TokSpan)) u (fun _ _ => True) (fun e _ => e = .none ∧ ¬ c!"'" <+: i) := by
    intro u fs r h hok
    refine .bind ((sf_sqLoop t.st (i.length + 1) [] u h hok).cons (fun bs t' _ => ?_) (fun _ _ h => h.elim))
    exact .bind (sf_inputPos trivial)
  refine .ite (fun h => ?_) fun _ => .ite (fun h => ?_) fun h => ⟨rfl, noPrefix_of h⟩
  · obtain ⟨r, rfl⟩ := startsWith_split h
    obtain ⟨w, ks, r', e, _, p, fs, k, rfl, hp, hok, _⟩ := ha.form nofun
    refine .bind (sf_advBytes hi rfl fun hl => ?_)
    rcases hp with rfl | rfl
    · injection e with e _; cases e
    · have e : r = fragSrc fs ++ (c!"'" ++ r') := by simpa using e
      subst e
      exact body _ fs r' hl.mv.at' hok
  · obtain ⟨r, rfl⟩ := startsWith_split h
    obtain ⟨w, ks, r', e, _, p, fs, k, rfl, hp, hok, _⟩ := ha.form nofun
    refine .bind (sf_advBytes hi rfl fun hl => ?_)
    rcases hp with rfl | rfl
    · have e : r = fragSrc fs ++ (c!"'" ++ r') := by simpa using e
      subst e
      exact body _ fs r' hl.mv.at' hok
    · injection e with e _; cases e

theorem go_dqString {next : T TokSpan} (bfuel : Nat) {i : Text} (hi : At t i) (ha : Stands i) (hb : Gb next bfuel t) :
    GoG (¬ c!"\"" <+: i) (matchDqString next bfuel) t := by
  unfold GoG matchDqString
  refine .bind (sf_input hi ?_)
  refine .ite (fun h => ⟨rfl, ha.notShort (.inr (.inl rfl)) h⟩) fun _ => ?_
  refine .bind (m := getSt) (.of_ok rfl ?_)
  dsimp only
  have body : ∀ u fs r, At u (fragSrc fs ++ (c!"\"" ++ r)) → FragsOk .double fs (c!"\"" ++ r) → Gb next bfuel u → 1 ≤ u.st.srcPos → Safe (do
      let (bytes, parts) ← dqLoop next bfuel t.st (i.length + 1) [] []
      let cur ← inputPos
      let c1 ← subT cur 1
      returnTokensFromParts ⟨.k .DoubleQuote, mkSpan t.st.srcPos (t.st.srcPos + 1)⟩
        ⟨.k .DoubleQuote, mkSpan c1 cur⟩ bytes parts) u (fun _ _ => True) (fun e _ => e = .none ∧ ¬ c!"\"" <+: i) := by
    intro u fs r h hok hb' hp
    refine .bind (((sf_dqLoop bfuel t.st (i.length + 1) [] [] u h hok hb' (Nat.zero_le _)).and
      (dqLoop_lay bfuel t.st (i.length + 1) [] [] u hb'.ok)).cons ?_ (fun _ _ h => h.1.elim))
    rintro ⟨bs, ps⟩ v ⟨_, gs, r', k1, _⟩
    refine .bind (sf_inputPos ?_)
    refine .bind (sf_subT ?_ trivial)
    rw [k1.pos]
    exact Nat.le_trans hp (Nat.le_add_right _ _)
  refine .ite (fun h => ?_) fun _ => .ite (fun h => ?_) fun h => ⟨rfl, noPrefix_of h⟩
  · obtain ⟨r, rfl⟩ := startsWith_split h
    obtain ⟨w, ks, r', e, _, p, fs, k, rfl, hp, hok, _⟩ := ha.form nofun
    refine .bind (sf_advBytes hi rfl fun hl => ?_)
    rcases hp with rfl | rfl
    · injection e with e _; cases e
    · have e : r = fragSrc fs ++ (c!"\"" ++ r') := by simpa using e
      subst e
      exact body _ fs r' hl.mv.at' hok (hb.moved hl.mv) (by rw [hl.pos]; exact Nat.le_add_left 1 _)
  · obtain ⟨r, rfl⟩ := startsWith_split h
    obtain ⟨w, ks, r', e, _, p, fs, k, rfl, hp, hok, _⟩ := ha.form nofun
    refine .bind (sf_advBytes hi rfl fun hl => ?_)
    rcases hp with rfl | rfl
    · have e : r = fragSrc fs ++ (c!"\"" ++ r') := by simpa using e
      subst e
      exact body _ fs r' hl.mv.at' hok (hb.moved hl.mv) (by rw [hl.pos]; exact Nat.le_add_left 1 _)
    · injection e with e _; cases e

theorem go_backquote {next : T TokSpan} (bfuel : Nat) {i : Text} (hi : At t i) (ha : Stands i) (hb : Gb next bfuel t) :
    GoG (¬ c!"`" <+: i) (matchBackquote next bfuel) t := by
  unfold GoG matchBackquote
  refine .bind (sf_input hi ?_)
  refine .ite (fun h => ⟨rfl, ha.notShort (.inr (.inr rfl)) h⟩) fun _ => ?_
  refine .ite (fun h => ?_) fun h => ⟨rfl, noPrefix_of h⟩
  obtain ⟨r, rfl⟩ := startsWith_split h
  obtain ⟨w, ks, r', e, _, fs, ts, rfl, hok, _, rfl, _⟩ := ha.form nofun
  have e : r = fragSrc fs ++ c!"`" := by simpa using e
  subst e
  refine .bind (m := getSt) (.of_ok rfl ?_)
  refine .bind (sf_advBytes hi rfl fun hl => ?_)
  refine .bind (((sf_bqLoop bfuel t.st _ [] [] _ hl.mv.at' hok (hb.moved hl.mv) (Nat.zero_le _)).and
      (bqLoop_lay bfuel t.st _ [] [] _ (hb.moved hl.mv).ok)).cons ?_ (fun _ _ h => h.1.elim))
  rintro ⟨bs, ps⟩ v ⟨_, ⟨gs, r', k1, _⟩, _⟩
  refine .bind (sf_inputPos ?_)
  refine .bind (sf_subT ?_ trivial)
  rw [k1.pos, hl.pos]
  exact Nat.le_trans (Nat.le_add_left 1 _) (Nat.le_add_right _ _)

/-! ### Variables and comments -/

theorem go_variable {i : Text} (hi : At t i) : Go matchVariable t := by
  unfold Go matchVariable
  refine .bind (sf_input hi ?_)
  refine .ite (fun _ => rfl) fun h => ?_
  simp only [Bool.or_eq_true, decide_eq_true_eq, Bool.not_eq_true', not_or, Bool.not_eq_false] at h
  obtain ⟨r, rfl⟩ := startsWith_split h.2
  refine .bind (sf_inputPos ?_)
  refine .bind (sf_advBytes hi rfl fun hl => ?_)
  refine .bind (sf_label hl.mv.at' (fun _ => ?_) fun w r' _ _ _ _ => trivial)
  exact .bind (m := setPos _) (.of_ok rfl rfl)

theorem go_lineComment {o r : Text} {n : Nat} (old : Nat) (hi : At t (o ++ r)) (hn : n = byteLen o) : Safe (lineComment old n) t (fun _ _ => True) (fun _ _ => False) := by
  unfold lineComment
  refine .bind (sf_advBytes hi hn fun hl => ?_)
  refine .bind (sf_input hl.mv.at' ?_)
  exact .bind (sf_advChars hl.mv.at' fun hl2 => .bind (sf_modSt (.bind (sf_inputPos trivial))))

theorem go_blockComment {o s r : Text} {n : Nat} {doc : Bool} (old : Nat) (hi : At t (o ++ (s ++ (c!"*/" ++ r)))) (hn : n = byteLen o)
    (hs : ¬ c!"*/" <:+: s) : Safe (blockComment old n doc) t (fun _ _ => True) (fun _ _ => False) := by
  unfold blockComment
  refine .bind (sf_advBytes hi hn fun hl => ?_)
  refine .bind (sf_input hl.mv.at' ?_)
  have : beforeSub c!"*/" (s ++ (c!"*/" ++ r)) = some s := beforeSub_found (by decide) hs
  rw [this]
  refine .bind (sf_advBytes hl.mv.at' rfl fun hl2 => ?_)
  refine .bind (sf_advBytes hl2.mv.at' rfl fun hl3 => ?_)
  exact .bind (sf_modSt (.bind (sf_inputPos trivial)))

theorem go_comments {i : Text} (hi : At t i) (ha : Stands i) : GoG (¬ c!"#" <+: i) matchComments t := by
  unfold GoG matchComments
  refine .bind (sf_inputPos ?_)
  refine .bind (sf_input hi ?_)
  refine .ite (fun h => ?_) (fun hh => .ite (fun h => ?_) (fun hl => .ite (fun h => ?_) (fun hd => .ite (fun h => ?_) (fun hs => ⟨rfl, noPrefix_of hh⟩))))
  · obtain ⟨r, rfl⟩ := startsWith_split h
    exact (go_lineComment _ hi rfl).cons (fun _ _ h => h) (fun _ _ h => h.elim)
  · obtain ⟨r, rfl⟩ := startsWith_split h
    exact (go_lineComment _ hi rfl).cons (fun _ _ h => h) (fun _ _ h => h.elim)
  · obtain ⟨r, rfl⟩ := startsWith_split h
    obtain ⟨w, ks, r', e, _, o, s, rfl, ho, hs, _⟩ := ha.form nofun
    rcases ho with rfl | ⟨rfl, ho⟩
    · have e : c!"/**" ++ r = c!"/**" ++ (s ++ (c!"*/" ++ r')) := by simpa using e
      rw [e] at hi
      exact (go_blockComment _ hi rfl hs).cons (fun _ _ h => h) (fun _ _ h => h.elim)
    · exfalso
      have e : '*' :: r = (s ++ c!"*/") ++ r' := by simpa using e
      cases hq : s ++ c!"*/" with
      | nil => simp at hq
      | cons c q =>
        rw [hq] at e ho
        injection e with e _
        subst e
        exact ho ⟨q, rfl⟩
  · obtain ⟨r, rfl⟩ := startsWith_split h
    have hle : lead (c!"/*" ++ r) = 5 := by
      show lead ('/' :: '*' :: r) = 5
      unfold lead
      simp
    obtain ⟨w, ks, r', e, _, hf⟩ := ha.form nofun
    rw [hle] at hf
    obtain ⟨o, s, rfl, ho, hs, _⟩ := hf
    rcases ho with rfl | ⟨rfl, ho⟩
    · exfalso
      apply hd
      rw [e, List.append_assoc, List.append_assoc]
      exact startsWith_append _ _
    · have e : c!"/*" ++ r = c!"/*" ++ (s ++ (c!"*/" ++ r')) := by simpa using e
      rw [e] at hi
      exact (go_blockComment _ hi rfl hs).cons (fun _ _ h => h) (fun _ _ h => h.elim)

end
end Pico
