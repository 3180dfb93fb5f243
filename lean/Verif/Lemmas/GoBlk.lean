import Verif.Lemmas.GoOther
/-! # Expressions between braces are read without errors -/
namespace Pico
open T

section
variable {t : Tz}

theorem whitespace_go {i : Text} (hi : At t i) {E : SyntaxErr → Tz → Prop} : Safe whitespace t
    (fun _ t' => ∃ b r, i = b ++ r ∧ Lay t b t' r ∧ Blank b ∧ ∀ c, r.head? = some c → ¬ isBlank c = true) E := by
  obtain ⟨b, r, rfl, hbb, hr⟩ := blank_split i
  refine Safe.of_ok (whitespace_at hi hbb hr) ⟨b, r, rfl, .ws hi hbb, blank_of hbb, fun c hc h => ?_⟩
  rw [hc] at hr
  simp [h] at hr

theorem property_go {i : Text} {k : List LexState} (hi : At t i) (hk : t.st.stack = .inScripting :: k) :
    Safe lookingForPropertyToken t (fun _ _ => True) (fun _ _ => True) := by
  unfold lookingForPropertyToken
  refine .bind ((whitespace_go hi).cons ?_ (fun _ _ h => h))
  rintro _ u ⟨b, r, rfl, hl, hbb, hr⟩
  have hk' : u.st.stack = .inScripting :: k := hl.mv.stack.trans hk
  cases ha : startsWithCi r c!"->" with
  | true => exact .of_ok (orElse_ok (matchTok_some (ent .ObjectOp) hl.mv.at' ha (by decide) rfl)) trivial
  | false =>
    refine .orElse (.of_err (matchTok_none (ent .ObjectOp) hl.mv.at' ha) ⟨fun _ => ?_, fun _ => trivial⟩)
    refine .bind (sf_label hl.mv.at' (fun _ => ?_) ?_)
    · exact .bind (.of_ok (popState_ok hk') (.bind (m := modSt _) (.of_ok rfl trivial)))
    · rintro w r' rfl hw he hl'
      exact .bind (.of_ok (popState_ok (t := u.adv (byteLen w)) hk') trivial)

/-- One round of `nextToken`. -/
theorem next_step {fuel : Nat} {step : T TokSpan} (hs : t.st.state ≠ .emitQueue) (he : stepOf fuel t.st.state = step)
    {Q : TokSpan → Tz → Prop} {E : SyntaxErr → Tz → Prop}
    (h : Safe step t Q fun e t' => e = .none ∧ t'.st.restart = true ∧
      Safe (nextToken fuel) { t' with st := { t'.st with restart := false } } Q E) : Safe (nextToken (fuel + 1)) t Q E := by
  have e : nextToken (fuel + 1) t = match step t with
    | .err .none t' =>
      if t'.st.restart then nextToken fuel { t' with st := { t'.st with restart := false } }
      else .err .none t'
    | r => r := by
    subst he
    conv => lhs; unfold nextToken
    dsimp only
    cases h : t.st.state with
    | emitQueue => exact absurd h hs
    | done => rfl
    | doNothing => rfl
    | initial =>
      dsimp only [stepOf]
      generalize initialToken t = r
      cases r with
      | err e t' => cases e <;> rfl
      | _ => rfl
    | inScripting =>
      dsimp only [stepOf]
      generalize inScriptingToken (nextToken fuel) fuel t = r
      cases r with
      | err e t' => cases e <;> rfl
      | _ => rfl
    | lookingForProperty =>
      dsimp only [stepOf]
      generalize lookingForPropertyToken t = r
      cases r with
      | err e t' => cases e <;> rfl
      | _ => rfl
  unfold Safe at h
  cases hr : step t with
  | ok a t' => rw [hr] at h e; exact Safe.of_ok e h
  | err er t' =>
    rw [hr] at h e
    obtain ⟨rfl, h1, h2⟩ := h
    dsimp only at e
    rw [if_pos h1] at e
    unfold Safe
    rw [e]
    exact h2
  | panic p => rw [hr] at h; exact h.elim
  | oof =>
    rw [hr] at e
    unfold Safe
    rw [e]
    trivial

/-! ### The rest of an expression -/

theorem Inner.unblank {b i s r : Text} {ts : List Token} (h : Inner .script s ts r) (hb : Blank b) (e : s ++ r = b ++ i) :
    ∃ s', i = s' ++ r ∧ Inner .script s' ts r := by
  obtain ⟨c, j, rfl, hc, hj⟩ := blank_split i
  have hbc : Blank (b ++ c) := fun d hd => by
    rcases List.mem_append.1 hd with h | h
    · exact hb d h
    · exact blank_of hc d h
  have hj : ∀ c, j.head? = some c → ¬ isBlank c = true := fun c hc h => by
    rw [hc] at hj
    simp [h] at hj
  cases h with
  | close b' hb' =>
    have e1 : b' ++ ('}' :: r) = (b ++ c) ++ j := by simpa using e
    obtain ⟨rfl, rfl⟩ := blank_unique hb' hbc (noBlank_of rfl) hj e1
    exact ⟨c ++ c!"}", by simp, .close c (blank_of hc)⟩
  | @piece s' _ _ b' w k hb' hw h =>
    have e1 : b' ++ (w ++ (s' ++ r)) = (b ++ c) ++ j := by simpa using e
    obtain ⟨rfl, rfl⟩ := blank_unique hb' hbc hw.scrap.first.1 hj e1
    exact ⟨c ++ w ++ s', by simp, .piece c w k (blank_of hc) hw h⟩

theorem Inner.propRest {b i s r : Text} {ts : List Token} (h : Inner .prop s ts r) (e : s ++ r = b ++ i) (hb : Blank b)
    (hr : startsBlank i = false) (hn : noIdentifier i) (ha : ¬ c!"->" <+: i) : ∃ s', i = s' ++ r ∧ Inner .script s' ts r := by
  cases h with
  | @propName s' _ _ b' w hb' hw he h =>
    have e1 : b' ++ (w ++ (s' ++ r)) = b ++ i := by simpa using e
    obtain ⟨_, rfl⟩ := blank_unique hb' hb (noBlank_label hw) (noBlank_starts hr) e1
    exact absurd hn (label_some' hw)
  | @propArrow s' _ _ b' hb' h =>
    have e1 : b' ++ ('-' :: '>' :: (s' ++ r)) = b ++ i := by simpa using e
    obtain ⟨_, rfl⟩ := blank_unique hb' hb (noBlank_of rfl) (noBlank_starts hr) e1
    exact absurd ⟨_, rfl⟩ ha
  | @propNone s' _ _ b' hb' hr' _ _ h =>
    have e1 : b' ++ (s' ++ r) = b ++ i := by simpa using e
    obtain ⟨_, rfl⟩ := blank_unique hb' hb (noBlank_starts hr') (noBlank_starts hr) e1
    exact ⟨s', rfl, h⟩

theorem Link.fwd {g g' : Region} {i i' s r : Text} {k : Token} {ts : List Token} (h : Link g i k g' i') (hs : Inner g s ts r) (e : s ++ r = i) :
    ∃ s' ts', i' = s' ++ r ∧ Inner g' s' ts' r := by
  induction h generalizing s ts with
  | @piece i k g b w c hb hc hw hg =>
    cases hs with
    | close b' hb' =>
      have e1 : b' ++ ('}' :: r) = b ++ (w ++ (c ++ i)) := by simpa using e
      obtain ⟨_, e2⟩ := blank_unique hb' hb (noBlank_of rfl) hw.scrap.first.1 e1
      exact (hw.brace e2.symm).elim
    | @piece s' _ ts' b' w' k' hb' hw' h =>
      have e1 : b' ++ (w' ++ (s' ++ r)) = b ++ (w ++ (c ++ i)) := by simpa using e
      obtain ⟨_, e2⟩ := blank_unique hb' hb hw'.scrap.first.1 hw.scrap.first.1 e1
      obtain ⟨rfl, rfl, e3⟩ := hw'.unique hw e2
      rcases hg with ⟨h1, rfl, rfl⟩ | ⟨h1, rfl⟩
      · rw [if_pos h1] at h
        exact ⟨s', ts', e3.symm, h⟩
      · rw [if_neg h1] at h
        obtain ⟨s2, e4, h2⟩ := h.unblank hc e3
        exact ⟨s2, ts', e4, h2⟩
  | @name i b w hb hw he =>
    cases hs with
    | @propName s' _ ts' b' w' hb' hw' he' h =>
      have e1 : b' ++ (w' ++ (s' ++ r)) = b ++ (w ++ i) := by simpa using e
      obtain ⟨_, e2⟩ := blank_unique hb' hb (noBlank_label hw') (noBlank_label hw) e1
      obtain ⟨rfl, e3⟩ := label_unique hw' hw he' he e2
      exact ⟨s', ts', e3.symm, h⟩
    | @propArrow s' _ ts' b' hb' h =>
      have e1 : b' ++ ('-' :: '>' :: (s' ++ r)) = b ++ (w ++ i) := by simpa using e
      obtain ⟨_, e2⟩ := blank_unique hb' hb (noBlank_of rfl) (noBlank_label hw) e1
      obtain ⟨c, q, e3, h1, _⟩ := hw.head (r := i)
      rw [e3] at e2
      injection e2 with e2
      subst e2
      cases h1
    | @propNone s' _ ts' b' hb' hr' hn' ha' h =>
      have e1 : b' ++ (s' ++ r) = b ++ (w ++ i) := by simpa using e
      obtain ⟨_, e2⟩ := blank_unique hb' hb (noBlank_starts hr') (noBlank_label hw) e1
      rw [e2] at hn'
      exact absurd hn' (label_some' hw)
  | @arrow i b hb =>
    cases hs with
    | @propName s' _ ts' b' w' hb' hw' he' h =>
      have e1 : b' ++ (w' ++ (s' ++ r)) = b ++ ('-' :: '>' :: i) := by simpa using e
      obtain ⟨_, e2⟩ := blank_unique hb' hb (noBlank_label hw') (noBlank_of rfl) e1
      obtain ⟨c, q, e3, h1, _⟩ := hw'.head (r := s' ++ r)
      rw [e3] at e2
      injection e2 with e2
      subst e2
      cases h1
    | @propArrow s' _ ts' b' hb' h =>
      have e1 : b' ++ ('-' :: '>' :: (s' ++ r)) = b ++ ('-' :: '>' :: i) := by simpa using e
      obtain ⟨_, e2⟩ := blank_unique hb' hb (noBlank_of rfl) (noBlank_of rfl) e1
      injection e2 with _ e2
      injection e2 with _ e2
      exact ⟨s', ts', e2.symm, h⟩
    | @propNone s' _ ts' b' hb' hr' hn' ha' h =>
      have e1 : b' ++ (s' ++ r) = b ++ ('-' :: '>' :: i) := by simpa using e
      obtain ⟨_, e2⟩ := blank_unique hb' hb (noBlank_starts hr') (noBlank_of rfl) e1
      exact absurd ⟨_, e2.symm⟩ ha'
  | none b hb hr hn ha h ih =>
    obtain ⟨s', rfl, h'⟩ := hs.propRest e hb hr hn ha
    exact ih h' rfl

/-- The closing brace of a simple expression is found. -/
theorem Inner.tame {g : Region} {s r r' : Text} {ts : List Token} (h : Inner g s ts r) (ht : TameAt (s ++ r) r') : r = r' := by
  induction h with
  | close b hb =>
    rw [List.append_assoc] at ht
    rcases (ht.pass (blank_pass hb)).head with h | h | h
    · exact h.2
    · cases h.1
    · cases h
  | piece b w k hb hw h ih =>
    rw [List.append_assoc, List.append_assoc] at ht
    rcases Scrap.tame hw.scrap (ht.pass (blank_pass hb)) with ⟨rfl, _⟩ | ⟨_, _, _, h, _⟩
    · exact (hw.brace rfl).elim
    · exact ih h
  | propName b w hb hw he h ih =>
    rw [List.append_assoc, List.append_assoc] at ht
    exact ih ((ht.pass (blank_pass hb)).pass (label_pass hw))
  | propArrow b hb h ih =>
    rw [List.append_assoc, List.append_assoc] at ht
    exact ih ((ht.pass (blank_pass hb)).pass (by decide))
  | propNone b hb hr hn ha h ih =>
    rw [List.append_assoc] at ht
    exact ih (ht.pass (blank_pass hb))

theorem brace_scrap (r : Text) : Scrap c!"}" [.k .CurlyBracesClose] r := by
  refine .symbol (by decide +kernel) ?_ ?_
  · intro s hs hp
    have key : ∀ s ∈ c!"?>" :: symbols.map Prod.fst, s.head? = some '}' → s = c!"}" := by decide +kernel
    cases s with
    | nil => simp
    | cons c s =>
      obtain ⟨q, hq⟩ := hp
      injection hq with hq _
      rw [key _ hs (by rw [hq]; rfl)]
      exact Nat.le_refl _
  · rintro (⟨c, r, h, _⟩ | ⟨q, h⟩ | ⟨q, h⟩ | ⟨q, h, _⟩ | ⟨_, b, q, tag, nl, r, h, _⟩)
    all_goals (injection h with h; cases h)

theorem Inner.mem {g : Region} {s r : Text} {ts : List Token} (h : Inner g s ts r) : '}' ∈ s := by
  induction h <;> simp_all

theorem scripting_in {next : T TokSpan} (bfuel : Nat) {s r : Text} {ts : List Token} (hs : Scr t) (hb : Gb next bfuel t) (hst : ¬ HasStray t.code)
    (hi : At t (s ++ r)) (hk : t.st.stack ≠ []) (hin : Inner .script s ts r) :
    Safe (inScriptingToken next bfuel) t (fun _ _ => True) (fun _ _ => False) := by
  have key : ∃ b w q ks, s ++ r = b ++ (w ++ q) ∧ Blank b ∧ Scrap w ks q ∧ w ++ q ≠ c!"." := by
    cases hin with
    | close b hb => exact ⟨b, c!"}", r, _, by simp, hb, brace_scrap r, fun h => by injection h with h; cases h⟩
    | @piece s' _ _ b w k hb hw h =>
      refine ⟨b, w, s' ++ r, _, by simp, hb, hw.scrap, fun h' => ?_⟩
      have := h.mem
      have : '}' ∈ c!"." := by rw [← h']; simp [this]
      revert this
      decide
  obtain ⟨b, w, q, ks, e, hbb, hw, hdot⟩ := key
  rw [e] at hi
  unfold inScriptingToken
  refine .bind ((whitespace_go hi).cons ?_ (fun _ _ h => h))
  rintro _ u ⟨b', i, e', hl, hb', hr'⟩
  obtain ⟨rfl, rfl⟩ := blank_unique hbb hb' hw.first.1 hr' e'
  refine .bind (.of_ok (input_at hl.mv.at') ?_)
  refine .ite (fun he => ?_) (fun he => ?_)
  · rw [List.isEmpty_iff] at he
    exact absurd he hw.first.2.1
  · refine .bind (sf_inputPos ?_)
    exact (rest_go bfuel (hs.moved hl.mv) (hb.moved hl.mv) (by rw [hl.mv.code]; exact hst) hl.mv.at'
      (.inl ⟨w, ks, q, rfl, hw⟩) hdot (fun _ => by rw [hl.mv.stack]; exact hk)).cons (fun _ _ _ => trivial) (fun _ _ h => h)

/-! ### The loop -/

/-- Every token of an expression between braces is read. -/
structure BlkSafe (next : T TokSpan) (code : Text) : Prop where
  step : ∀ t g s r ts, Blk code t g (s ++ r) r → Inner g s ts r → Safe next t (BlkStep code g (s ++ r) r) (fun _ _ => False)
  stop : ∀ t, t.st.state = .doNothing → Safe next t (fun _ _ => False) (fun _ _ => True)

theorem BlkSafe.loop {next : T TokSpan} {code : Text} (h : BlkSafe next code) (fuel : Nat) :
    ∀ t g s r ts acc, Blk code t g (s ++ r) r → Inner g s ts r → Safe (blockLoop next fuel acc) t (fun _ _ => True) (fun _ _ => False) := by
  induction fuel with
  | zero => exact fun _ _ _ _ _ _ _ _ => trivial
  | succ fuel ih =>
    intro t g s r ts acc hb hin
    have h1 := h.step t g s r ts hb hin
    unfold Safe at h1 ⊢
    unfold blockLoop
    cases hn : next t with
    | panic p => rw [hn] at h1; exact h1
    | oof => exact trivial
    | err e u => rw [hn] at h1; exact h1.elim
    | ok x u =>
      rw [hn] at h1
      dsimp only
      rcases h1 with ⟨g', i', h2, h3⟩ | ⟨h2, h3, h4, h5, _⟩
      · obtain ⟨s', ts', rfl, h4⟩ := h3.fwd hin rfl
        exact ih u g' s' r ts' _ h2 h4
      · cases fuel with
        | zero => exact trivial
        | succ fuel =>
          have h8 := h.stop u h4
          unfold Safe at h8
          unfold blockLoop
          cases hn : next u with
          | panic p => rw [hn] at h8; exact h8
          | oof => exact trivial
          | err e u => exact trivial
          | ok x v => rw [hn] at h8; exact h8.elim

theorem BlkSafe.go {next : T TokSpan} {code : Text} (h : BlkSafe next code) (hw : ¬ HasWild code) (fuel : Nat) : BlkGo next fuel code := by
  intro u s r ts acc hc hq hs hk ha ⟨pre, ho⟩ hin
  have ht : ∃ r', TameAt (s ++ r) r' := by
    rcases ho with ⟨ho, q, hq⟩ | ho
    · obtain ⟨r', w, e, ht⟩ := wild_at (pre := pre) (rest := q) hw (.inl (by rw [ho, ← hq]; simp))
      rw [← hq]
      exact ⟨r', '$' :: w, by rw [e]; rfl, .code '$' (by decide) ht⟩
    · exact wild_at hw (.inr ho)
  obtain ⟨r', ht⟩ := ht
  obtain rfl := hin.tame ht
  exact h.loop fuel u .script s r ts acc ⟨hc, hq, ha, ht, .inl ⟨rfl, hs, hk⟩⟩ hin

theorem next_stopped (fuel : Nat) : ∀ t, t.st.state = .doNothing → Safe (nextToken fuel) t (fun _ _ => False) (fun _ _ => True) := by
  induction fuel with
  | zero => exact fun _ _ => trivial
  | succ fuel ih =>
    intro t hs
    have e : nextToken (fuel + 1) t = if t.st.restart then nextToken fuel { t with st := { t.st with restart := false } } else .err .none t := by
      conv => lhs; unfold nextToken; dsimp only; rw [hs]
      rfl
    by_cases hr : t.st.restart = true
    · rw [if_pos hr] at e
      have := ih { t with st := { t.st with restart := false } } hs
      unfold Safe at this ⊢
      rw [e]
      exact this
    · rw [if_neg hr] at e
      exact Safe.of_err e trivial

theorem blkSafe_all {code : Text} (hw : ¬ HasWild code) (hst : ¬ HasStray code) : ∀ fuel, BlkSafe (nextToken fuel) code := by
  intro fuel
  induction fuel with
  | zero => exact ⟨fun _ _ _ _ _ _ _ => trivial, fun _ _ => trivial⟩
  | succ fuel ih =>
    refine ⟨fun t g s r ts hb hin => ?_, fun t hs => next_stopped _ t hs⟩
    refine ((?_ : Safe (nextToken (fuel + 1)) t (fun _ _ => True) (fun _ _ => False)).and ((blkNext_all hw hst (fuel + 1)).step t g _ r hb)).cons
      (fun _ _ h => h.2) (fun _ _ h => h.1)
    obtain ⟨rfl, hq, ha, ht, hm⟩ := hb
    rcases hm with ⟨rfl, hs, hk⟩ | ⟨rfl, hs, hk⟩
    · refine next_step (by rw [hs]; nofun) (by rw [hs]) ?_
      have hsc : Scr t := ⟨hs, hq, by rw [hk]; simp⟩
      exact (scripting_in fuel hsc ⟨⟨hq, (blkNext_all hw hst fuel).blocks hw fuel⟩, ih.go hw fuel⟩ hst ha (by rw [hk]; nofun) hin).cons
        (fun _ _ h => h) (fun _ _ h => h.elim)
    · refine next_step (by rw [hs]; nofun) (by rw [hs]) ?_
      refine ((property_go ha hk).and (property_blk hs hq ha ht hk)).cons (fun _ _ _ => trivial) ?_
      rintro e u ⟨_, rfl, hr, b, i', hb, e, f1, f2, f3, f4⟩
      obtain ⟨s', rfl, hin'⟩ := hin.propRest e f1 f2 f3 f4
      have hb' : Blk t.code { u with st := { u.st with restart := false } } .script (s' ++ r) r := ⟨hb.code, hb.queue, hb.at', hb.tame, hb.mode⟩
      exact ⟨rfl, hr, (ih.step _ _ _ _ _ hb' hin').cons (fun _ _ _ => trivial) (fun _ _ h => h)⟩

end
end Pico
