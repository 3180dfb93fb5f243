import Verif.Lemmas.GoNum
/-! # The scanner of documents does not fail where a piece stands -/
namespace Pico
open T

section
variable {t : Tz}

theorem go_docBody {next : T TokSpan} (bfuel : Nat) (bak : TState) (now : Bool) (tag : Text) {fs : List Snip} {r : Text}
    (h : At t (fragSrc fs ++ (c!"\n" ++ tag ++ r))) (hok : FragsOk (docQuote now tag) fs (c!"\n" ++ tag ++ r)) (he : EndsDoc r)
    (hb : Gb next bfuel t) (hp : 1 ≤ t.st.srcPos) : Go (docBody next bfuel bak now tag) t := by
  unfold Go docBody
  refine .bind (sf_input h ?_)
  refine .bind (((sf_docLoop bfuel bak now tag _ [] [] t h hok he hb (Nat.zero_le _)).and
    (docLoop_lay bfuel bak now tag _ [] [] t hb.ok)).cons ?_ (fun _ _ h => h.1.elim))
  rintro ⟨bs, ps⟩ v ⟨_, gs, r', k1, _, _, k4, _⟩
  refine .bind (sf_inputPos ?_)
  refine .ite (fun hn => ?_) fun _ => ?_
  · have := k4 hn
    simp only [Prod.mk.injEq] at this
    rw [this.2]
    exact trivial
  · refine .bind (sf_subT ?_ trivial)
    rw [k1.pos]
    exact Nat.le_trans hp (Nat.le_add_right _ _)

theorem newline_mark {nl r : Text} (h : Newline nl r) : Newline nl (r ++ c!"x") := by
  refine h.imp id (Or.imp id fun ⟨h1, h2⟩ => ⟨h1, fun ⟨q, hq⟩ => h2 ?_⟩)
  cases r with
  | nil => injection hq with hq; cases hq
  | cons c r => injection hq with hq; exact ⟨r, by rw [← hq]; rfl⟩

/-- The first line of a document tells which document it is. -/
theorem doc_line {w r' b q tag nl r : Text} {ks : List Token} (h : Doc w ks r') (e : w ++ r' = c!"<<<" ++ (b ++ (q ++ (tag ++ (q ++ (nl ++ r))))))
    (hb : Spaces b) (hq : q = [] ∨ q = c!"'" ∨ q = c!"\"") (ht : IsLabel tag) (hn : Newline nl r) :
    ∃ fs s, r = fragSrc fs ++ (c!"\n" ++ tag ++ s) ∧ EndsDoc s ∧
      (q = c!"'" ∧ FragsOk (.now tag) fs (c!"\n" ++ tag ++ s) ∨ (q = [] ∨ q = c!"\"") ∧ FragsOk (.here tag) fs (c!"\n" ++ tag ++ s)) := by
  have ne : ∀ fs : List Snip, fragSrc fs ++ c!"\n" ≠ [] := fun fs h => by simp at h
  have nex : r ++ c!"x" ≠ [] := fun h => by simp at h
  cases h with
  | here b' q' tag' nl' fs ts hb' hq' ht' hn' h' hk' he' =>
    have e1 : b ++ (q ++ (tag ++ (q ++ (nl ++ ((r ++ c!"x") ++ []))))) =
        b' ++ (q' ++ (tag' ++ (q' ++ (nl' ++ ((fragSrc fs ++ c!"\n") ++ (tag' ++ (r' ++ c!"x"))))))) := by
      have := congrArg (· ++ c!"x") e.symm
      simpa using this
    obtain ⟨rfl, rfl, rfl, rfl, e2⟩ := docHead_unique hb hb' hq (hq'.imp id .inr) ht ht' (newline_mark hn) hn' nex (ne _) e1
    have e3 : r ++ c!"x" = (fragSrc fs ++ (c!"\n" ++ tag ++ r')) ++ c!"x" := by simpa using e2
    have := List.append_cancel_right e3
    exact ⟨fs, r', this, he', .inr ⟨hq', h'⟩⟩
  | now b' tag' nl' fs k hb' ht' hn' h' hk' he' =>
    have e1 : b ++ (q ++ (tag ++ (q ++ (nl ++ ((r ++ c!"x") ++ []))))) =
        b' ++ (c!"'" ++ (tag' ++ (c!"'" ++ (nl' ++ ((fragSrc fs ++ c!"\n") ++ (tag' ++ (r' ++ c!"x"))))))) := by
      have := congrArg (· ++ c!"x") e.symm
      simpa using this
    obtain ⟨rfl, rfl, rfl, rfl, e2⟩ := docHead_unique hb hb' hq (.inr (.inl rfl)) ht ht' (newline_mark hn) hn' nex (ne _) e1
    have e3 : r ++ c!"x" = (fragSrc fs ++ (c!"\n" ++ tag ++ r')) ++ c!"x" := by simpa using e2
    have := List.append_cancel_right e3
    exact ⟨fs, r', this, he', .inl ⟨rfl, h'⟩⟩

theorem go_docHeader {next : T TokSpan} (bfuel : Nat) (bak : TState) {u : Tz} {w0 r : Text} (hb : Gb next bfuel t) (hl : Lay t (w0 ++ c!"<<<") u r)
    (hd : ∀ b q tag nl s, r = b ++ (q ++ (tag ++ (q ++ (nl ++ s)))) → Spaces b → (q = [] ∨ q = c!"'" ∨ q = c!"\"") → IsLabel tag →
      Newline nl s → ∃ w ks r', w ++ r' = c!"<<<" ++ r ∧ Doc w ks r') : Go (docHeader next bfuel bak) u := by
  obtain ⟨b, r1, rfl, hbg, hr1⟩ := gap_split r
  have hpos : 1 ≤ u.st.srcPos := by
    rw [hl.pos, byteLen_append]
    exact Nat.le_trans (by decide) (Nat.le_add_left (byteLen c!"<<<") _)
  have quit : ∀ {v : Tz}, Safe (do
      setSt bak
      fail .none : T TokSpan) v (fun _ _ => True) (fun e _ => e = .none) := .bind (m := setSt _) (.of_ok rfl rfl)
  unfold Go docHeader
  refine .bind (.of_ok (whitespaceOnly_at hl.mv.at' hbg hr1) ?_)
  have hl1 : Lay u b (u.adv (byteLen b)) r1 := .adv hl.mv.at'
  refine .bind (sf_input hl1.mv.at' ?_)
  refine .bind (Safe.cons (E' := fun _ _ => False)
    (Q' := fun ty u2 => ∃ q r2, (ty = DocType.nowDoc ∧ q = c!"'" ∨ ty = .hereDocEncapsed ∧ q = c!"\"" ∨ ty = .hereDoc ∧ q = []) ∧ r1 = q ++ r2 ∧ Lay u (b ++ q) u2 r2) ?_ ?_ (fun _ _ h => h.elim))
  · refine .ite (fun h => ?_) (fun n1 => .ite (fun h => ?_) (fun n2 => ?_))
    · obtain ⟨r, rfl⟩ := startsWith_split h
      exact .bind (sf_advBytes hl1.mv.at' rfl fun hl => ⟨_, r, .inl ⟨rfl, rfl⟩, rfl, hl1.trans hl⟩)
    · obtain ⟨r, rfl⟩ := startsWith_split h
      exact .bind (sf_advBytes hl1.mv.at' rfl fun hl => ⟨_, r, .inr (.inl ⟨rfl, rfl⟩), rfl, hl1.trans hl⟩)
    · exact ⟨_, r1, .inr (.inr ⟨rfl, rfl⟩), rfl, by simpa using hl1⟩
  rintro ty u2 ⟨q, r2, hty, rfl, hl2⟩
  refine .bind (sf_label hl2.mv.at' (fun _ => quit) ?_)
  rintro tag r3 rfl hlab hends hl3
  have hl3 := hl2.trans hl3
  dsimp only
  refine .bind (sf_input hl3.mv.at' ?_)
  have key : Safe (do
      if startsWith r3 q then
        let _ ← advanceBytes (byteLen q)
        if ← newline then docBody next bfuel bak (ty == .nowDoc) tag
        else
          setSt bak
          fail .none
      else
        setSt bak
        fail .none) (u2.adv (byteLen tag)) (fun _ _ => True) (fun e _ => e = .none) := ?_
  · rcases hty with ⟨rfl, rfl⟩ | ⟨rfl, rfl⟩ | ⟨rfl, rfl⟩ <;> exact key
  refine .ite (fun h => ?_) fun _ => quit
  obtain ⟨r4, rfl⟩ := startsWith_split h
  refine .bind (sf_advBytes hl3.mv.at' rfl fun hl4 => ?_)
  have hl4 := hl3.trans hl4
  refine .bind (sf_newline hl4.mv.at' ?_ fun _ _ => quit)
  rintro nl r5 u5 rfl hnl hl5
  have hl5 := hl4.trans hl5
  refine .ite (fun _ => ?_) fun h => absurd rfl h
  have hq : q = [] ∨ q = c!"'" ∨ q = c!"\"" := by
    rcases hty with ⟨_, h⟩ | ⟨_, h⟩ | ⟨_, h⟩
    · exact .inr (.inl h)
    · exact .inr (.inr h)
    · exact .inl h
  have hbs : Spaces b := fun c hc => by
    rw [List.all_eq_true] at hbg
    simpa [isGap] using hbg c hc
  obtain ⟨w, ks, r', e, hdoc⟩ := hd b q tag nl r5 rfl hbs hq hlab hnl
  obtain ⟨fs, s, rfl, hend, hcase⟩ := doc_line hdoc e hbs hq hlab hnl
  refine go_docBody bfuel bak _ tag hl5.mv.at' ?_ hend ((hb.moved hl.mv).moved hl5.mv) ?_
  · rcases hcase with ⟨hq', hok⟩ | ⟨hq', hok⟩
    · rcases hty with ⟨h', _⟩ | ⟨_, h'⟩ | ⟨_, h'⟩
      · rw [h']
        exact hok
      · rw [hq'] at h'
        cases h'
      · rw [hq'] at h'
        cases h'
    · rcases hty with ⟨_, h'⟩ | ⟨h', _⟩ | ⟨h', _⟩
      · rw [h'] at hq'
        rcases hq' with h' | h' <;> cases h'
      · rw [h']
        exact hok
      · rw [h']
        exact hok
  · rw [hl5.pos]
    exact Nat.le_trans hpos (Nat.le_add_right _ _)

theorem newline_one {nl r : Text} (h : Newline nl r) : ∃ n s, nl = n ++ s ∧ (n = c!"\n" ∨ n = c!"\r") := h.split

theorem go_hereNowDoc {next : T TokSpan} (bfuel : Nat) {i : Text} (hi : At t i) (ha : Stands i) (hb : Gb next bfuel t) :
    Go (matchHereNowDoc next bfuel) t := by
  unfold Go matchHereNowDoc
  refine .bind (sf_input hi ?_)
  refine .ite (fun _ => rfl) fun h8 => ?_
  refine .bind (m := getSt) (.of_ok rfl ?_)
  refine .ite (fun h => ?_) fun _ => .ite (fun h => ?_) fun _ => rfl
  · obtain ⟨r, rfl⟩ := startsWith_split h
    refine .bind (sf_advBytes hi rfl fun hl => ?_)
    refine go_docHeader (t := t) bfuel t.st (w0 := c!"b") hb hl ?_
    intro b q tag nl s e hbs hq ht hn
    obtain ⟨w, ks, r', e', _, hf⟩ := ha.form nofun
    rw [show lead (c!"b<<<" ++ r) = 10 by (show lead ('b' :: '<' :: '<' :: '<' :: r) = 10); unfold lead; simp] at hf
    rcases hf with ⟨v, rfl, hdoc⟩ | ⟨rfl, hno, _⟩
    · injection e' with _ e'
      exact ⟨v, ks, r', e'.symm, hdoc⟩
    · exfalso
      apply hno
      injection e' with _ e'
      have e' : c!"<<<" ++ r = r' := e'
      subst e'
      refine ⟨?_, ?_⟩
      · rw [utf8_eq, encode_length]
        have : byteLen (c!"b<<<" ++ r) = 1 + byteLen (c!"<<<" ++ r) := byteLen_append c!"b" (c!"<<<" ++ r)
        omega
      · obtain ⟨n, s', rfl, hn'⟩ := hn.split
        exact ⟨b, q, tag, n, s' ++ s, by rw [e]; simp, hbs, hq, ht, hn'⟩
  · obtain ⟨r, rfl⟩ := startsWith_split h
    refine .bind (sf_advBytes hi rfl fun hl => ?_)
    refine go_docHeader (t := t) bfuel t.st (w0 := []) hb hl ?_
    intro b q tag nl s e hbs hq ht hn
    obtain ⟨w, ks, r', e', _, hf⟩ := ha.form nofun
    rw [show lead (c!"<<<" ++ r) = 9 by (show lead ('<' :: '<' :: '<' :: r) = 9); unfold lead; simp] at hf
    rcases hf with hdoc | ⟨k, h1, h2, hno, _⟩
    · exact ⟨w, ks, r', e'.symm, hdoc⟩
    · exfalso
      apply hno
      rw [← e']
      refine .inr (.inr (.inr (.inr ⟨?_, ?_⟩)))
      · rw [utf8_eq, encode_length]
        omega
      · obtain ⟨n, s', rfl, hn'⟩ := hn.split
        exact ⟨b, q, tag, n, s' ++ s, by rw [e]; simp, hbs, hq, ht, hn'⟩

end
end Pico
