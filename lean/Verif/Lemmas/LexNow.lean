import Verif.Lemmas.LexBack
import Verif.Lemmas.LayBase
/-!
# Now documents with a `$` or `{` in them
-/
namespace Pico
open T
variable {t : Tz}

private theorem docLoop_text (next : T TokSpan) (bf : Nat) (bak : TState) (tag : Text) {c : Char} (hc : c = '$' ∨ c = '{') {rest : Text} :
    ∀ (k : Nat) (x : Text), x.length ≤ k → (∀ d ∈ x, d ∉ c!"\\${") → (∀ u v, x = u ++ '\n' :: v → ¬ tag <+: v ++ c :: rest) →
      ∀ (f : Nat) (bytes : List Byte) (t : Tz), x.length ≤ f → At t (x ++ c :: rest) →
      ∃ sp t', docLoop next bf bak true tag (f + 1) bytes [] t = .err (.unterminated "Here/Nowdoc" sp) t' := by
  have adv : ∀ (a s : Text) (d : Char) (t : Tz), (∀ e ∈ a, e ∉ c!"\\$\n{") → d ∈ c!"\\$\n{" → At t (a ++ d :: s) →
      advanceChars ((position (fun x => x == '\\' || x == '$' || x == '\n' || x == '{') (a ++ d :: s)).getD (byteLen (a ++ d :: s))) t =
        .ok a (t.adv (byteLen a)) := by
    intro a s d t ha hd h
    have hp : position (fun x => x == '\\' || x == '$' || x == '\n' || x == '{') (a ++ d :: s) = some a.length := by
      rw [position_skip fun e he => by
        have := ha e he
        simp only [List.mem_cons, List.not_mem_nil, or_false, not_or] at this
        simp [this]]
      have : position (fun x => x == '\\' || x == '$' || x == '\n' || x == '{') (d :: s) = some 0 := by
        unfold position
        simp only [List.mem_cons, List.not_mem_nil, or_false] at hd
        rw [if_pos (by rcases hd with rfl | rfl | rfl | rfl <;> rfl)]
      rw [this]
      simp
    rw [hp]
    exact advanceChars_at h rfl
  intro k
  induction k with
  | zero =>
    intro x hx hno hl f bytes t hf hat
    obtain rfl : x = [] := List.eq_nil_of_length_eq_zero (by omega)
    have h1 := adv [] rest c t nofun (by rcases hc with rfl | rfl <;> decide) hat
    refine ⟨mkSpan bak.srcPos (t.adv 0).st.srcPos, { (t.adv 0) with st := bak }, ?_⟩
    have h2 : At (t.adv (byteLen [])) (c :: rest) := (Moved.adv (a := []) hat).at'
    unfold docLoop
    rw [bind_ok (input_at hat), bind_ok h1, bind_ok (input_at h2), List.head?_cons]
    rcases hc with rfl | rfl <;> rfl
  | succ k ih =>
    intro x hx hno hl f bytes t hf hat
    obtain ⟨a, b, rfl, ha, hb⟩ := span_at (fun c => c == '\n') x
    have hal : ∀ e ∈ a, e ∉ c!"\\$\n{" := by
      intro e he
      have h1 := hno e (by simp [he])
      have h2 := ha e he
      simp only [List.mem_cons, List.not_mem_nil, or_false, not_or] at h1 ⊢
      simp only [beq_eq_false_iff_ne, ne_eq] at h2
      exact ⟨h1.1, h1.2.1, h2, h1.2.2⟩
    cases b with
    | nil =>
      rw [List.append_nil] at hat
      have h1 := adv a rest c t hal (by rcases hc with rfl | rfl <;> decide) hat
      refine ⟨mkSpan bak.srcPos (t.adv (byteLen a)).st.srcPos, { (t.adv (byteLen a)) with st := bak }, ?_⟩
      have h2 : At (t.adv (byteLen a)) (c :: rest) := (Moved.adv hat).at'
      unfold docLoop
      rw [bind_ok (input_at hat), bind_ok h1, bind_ok (input_at h2), List.head?_cons]
      rcases hc with rfl | rfl <;> rfl
    | cons d v =>
      obtain rfl : d = '\n' := by simpa using hb d rfl
      simp only [List.length_append, List.length_cons] at hf hx
      obtain ⟨f, rfl⟩ : ∃ g, f = g + 1 := ⟨f - 1, by omega⟩
      have hat : At t (a ++ '\n' :: (v ++ c :: rest)) := by simpa using hat
      have h1 := adv a (v ++ c :: rest) '\n' t hal (by decide) hat
      have h2 : At (t.adv (byteLen a)) (c!"\n" ++ (v ++ c :: rest)) := (Moved.adv hat).at'
      have h3 := (Moved.adv h2).at'
      have hnot : startsWith (v ++ c :: rest) tag = false := by
        cases hs : startsWith (v ++ c :: rest) tag with
        | false => rfl
        | true =>
          obtain ⟨r, e⟩ := startsWith_split hs
          exact absurd ⟨r, e.symm⟩ (hl a v rfl)
      obtain ⟨sp, t', hr⟩ := ih v (by omega) (fun e he => hno e (by simp [he])) (fun u w e => hl (a ++ '\n' :: u) w (by rw [e]; simp)) f
        ((bytes ++ encode a) ++ [10]) { ((t.adv (byteLen a)).adv (byteLen c!"\n")) with st := ((t.adv (byteLen a)).adv (byteLen c!"\n")).st.nextLine } (by omega) h3
      refine ⟨sp, t', ?_⟩
      unfold docLoop
      rw [bind_ok (input_at hat), bind_ok h1, bind_ok (input_at h2)]
      show (advanceBytes 1 >>= _) _ = _
      refine (bind_ok (advanceBytes_at' h2 rfl)).trans ?_
      refine (bind_ok (m := modSt TState.nextLine) rfl).trans ?_
      refine (bind_ok (input_at (t := { ((t.adv (byteLen a)).adv (byteLen c!"\n")) with st := ((t.adv (byteLen a)).adv (byteLen c!"\n")).st.nextLine }) h3)).trans ?_
      rw [if_neg (by rw [hnot]; exact Bool.false_ne_true)]
      exact hr

theorem hereNowDoc_now (next : T TokSpan) (bf : Nat) {b tag x rest : Text} {c : Char} (hb : Spaces b) (ht : IsLabel tag) (hc : c = '$' ∨ c = '{')
    (hx : ∀ d ∈ x, d ∉ c!"\\${") (hl : ∀ u v, x = u ++ '\n' :: v → ¬ tag <+: v ++ c :: rest)
    (h : At t (c!"<<<" ++ (b ++ (c!"'" ++ (tag ++ (c!"'" ++ (c!"\n" ++ (x ++ c :: rest)))))))) :
    ∃ sp t', matchHereNowDoc next bf t = .err (.unterminated "Here/Nowdoc" sp) t' := by
  have h1 := (Moved.adv h).at'
  have h2 := (Moved.adv h1).at'
  have h3 := (Moved.adv h2).at'
  have h4 := (Moved.adv h3).at'
  have h5 := (Moved.adv h4).at'
  have h6 := (Moved.adv h5).at'
  generalize ht6 : (((((t.adv (byteLen c!"<<<")).adv (byteLen b)).adv (byteLen c!"'")).adv (byteLen tag)).adv (byteLen c!"'")).adv (byteLen c!"\n") = t6 at h6
  obtain ⟨sp, t', hr⟩ := docLoop_text next bf t.st tag hc x.length x (Nat.le_refl _) hx hl (x ++ c :: rest).length [] { t6 with st := t6.st.nextLine }
    (by simp) h6
  refine ⟨sp, t', ?_⟩
  have hlen : ¬ byteLen (c!"<<<" ++ (b ++ (c!"'" ++ (tag ++ (c!"'" ++ (c!"\n" ++ (x ++ c :: rest))))))) < 8 := by
    have ht1 : 1 ≤ byteLen tag := by
      cases tag with
      | nil => exact absurd rfl ht.1
      | cons d s => have := Char.utf8Size_pos d; simp only [byteLen]; omega
    have e1 : byteLen c!"<<<" = 3 := by decide
    have e2 : byteLen c!"'" = 1 := by decide
    have e3 : byteLen c!"\n" = 1 := by decide
    have := Char.utf8Size_pos c
    simp only [byteLen_append, e1, e2, e3]
    simp only [byteLen]
    omega
  unfold matchHereNowDoc
  rw [bind_ok (input_at h), if_neg hlen]
  tstep (t.st) t
  rw [if_neg (by simp [startsWith]), if_pos (by simp [startsWith])]
  refine (bind_ok (advanceBytes_at' h rfl)).trans ?_
  unfold docHeader
  have hgap : b.all isGap = true := by
    rw [List.all_eq_true]
    intro d hd
    rcases hb d hd with rfl | rfl <;> decide
  refine (bind_ok (whitespaceOnly_at h1 hgap rfl)).trans ?_
  refine (bind_ok (input_at h2)).trans ?_
  rw [if_pos (by simp [startsWith])]
  have e1 : (do let _ ← advanceBytes 1; return DocType.nowDoc : T DocType) ((t.adv (byteLen c!"<<<")).adv (byteLen b)) =
      .ok .nowDoc (((t.adv (byteLen c!"<<<")).adv (byteLen b)).adv (byteLen c!"'")) := (bind_ok (advanceBytes_at' h2 rfl)).trans rfl
  refine (bind_ok e1).trans ?_
  refine (bind_ok (label_some h3 ht.1 ht.lab (fun d hd => by rw [← isDigit_iff]; exact ht.2.1 d hd) (by intro d hd; cases hd; decide))).trans ?_
  dsimp only
  refine (bind_ok (input_at h4)).trans ?_
  rw [if_pos (by simp [startsWith])]
  refine (bind_ok (advanceBytes_at' h4 rfl)).trans ?_
  have e2 : newline (((((t.adv (byteLen c!"<<<")).adv (byteLen b)).adv (byteLen c!"'")).adv (byteLen tag)).adv (byteLen c!"'")) =
      .ok true { t6 with st := t6.st.nextLine } := by
    unfold newline
    rw [bind_ok (input_at h5), if_neg (by simp [startsWith]), if_pos (by simp [startsWith])]
    refine (bind_ok (advanceBytes_at' h5 rfl)).trans ?_
    rw [ht6]
    rfl
  refine (bind_ok e2).trans ?_
  rw [if_pos rfl]
  unfold docBody
  refine (bind_ok (input_at (t := { t6 with st := t6.st.nextLine }) h6)).trans ?_
  exact bind_err hr

variable {d : Nat} {g : Text}

theorem step_now {b tag x rest : Text} {c : Char} {prop : Bool} (hb : Spaces b) (ht : IsLabel tag) (hc : c = '$' ∨ c = '{')
    (hx : ∀ d ∈ x, d ∉ c!"\\${") (hl : ∀ u v, x = u ++ '\n' :: v → ¬ tag <+: v ++ c :: rest) (hg : Blank g)
    (hat : At t (g ++ (c!"<<<" ++ (b ++ (c!"'" ++ (tag ++ (c!"'" ++ (c!"\n" ++ (x ++ c :: rest)))))))))
    (hm : Mode t prop d) (n : Nat) : ∃ sp t', nextToken (n + 2) t = .err (.unterminated "Here/Nowdoc" sp) t' := by
  have main : ∀ (t : Tz) (g : Text) (n : Nat), Blank g →
      At t (g ++ (c!"<<<" ++ (b ++ (c!"'" ++ (tag ++ (c!"'" ++ (c!"\n" ++ (x ++ c :: rest)))))))) → Mode t false d →
      ∃ sp t', nextToken (n + 1) t = .err (.unterminated "Here/Nowdoc" sp) t' := by
    intro t g n hg hat hm
    have hmv := Moved.ws hat hg.all
    have h := hmv.at'
    obtain ⟨sp, t', e⟩ := hereNowDoc_now (nextToken n) n hb ht hc hx hl h
    refine ⟨sp, t', ?_⟩
    have hs : inScriptingToken (nextToken n) n t = .err (.unterminated "Here/Nowdoc" sp) t' := by
      refine (scripting_start _ _ hat hg.all rfl (by simp)).trans ?_
      unfold T.orElse
      rw [e]
    unfold nextToken
    rw [hm.state]
    simp only [Bool.false_eq_true, if_false]
    rw [hs]
  cases prop with
  | false => exact main t g (n + 1) hg hat hm
  | true =>
    obtain ⟨t', ht, hat', hm', -⟩ := lexProp_other hg hat hm rfl (by intro c hc; cases hc; exact .inl (by decide)) rfl (n + 1)
    obtain ⟨sp, u, h1⟩ := main t' [] n nofun hat' hm'
    exact ⟨sp, u, ht.trans h1⟩

end Pico
