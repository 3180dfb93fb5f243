import Verif.Lemmas.TameStep
import Verif.Lemmas.TokNext
/-! # Simple expressions between braces are read to their end -/
namespace Pico
open T

section
variable {t : Tz}

theorem Inner.blank {s rest : Text} {ts : List Token} (h : Inner .script s ts rest) {b : Text} (hb : Blank b) : Inner .script (b ++ s) ts rest := by
  have app : ∀ c : Text, Blank c → Blank (b ++ c) := by
    intro c hc x hx
    rcases List.mem_append.1 hx with h | h
    · exact hb x h
    · exact hc x h
  cases h with
  | close c hc =>
    have := Inner.close (rest := rest) (b ++ c) (app c hc)
    simpa using this
  | piece c w k hc hw h =>
    have := Inner.piece (b ++ c) w k (app c hc) hw h
    simpa using this

/-- The tokenizer stands in an expression between braces. -/
structure Blk (code : Text) (t : Tz) (g : Region) (i r : Text) : Prop where
  code : t.code = code
  queue : t.queue = []
  at' : At t i
  tame : TameAt i r
  mode : (g = .script ∧ t.st.state = .inScripting ∧ t.st.stack = [.doNothing]) ∨
    (g = .prop ∧ t.st.state = .lookingForProperty ∧ t.st.stack = [.inScripting, .doNothing])

/-- One token of an expression. -/
inductive Link : Region → Text → Token → Region → Text → Prop
  | piece {i : Text} {k : Token} {g : Region} (b w c : Text) (hb : Blank b) (hc : Blank c) (hw : Bit w k (c ++ i))
      (hg : (k = .k .ObjectOp ∧ g = .prop ∧ c = []) ∨ (k ≠ .k .ObjectOp ∧ g = .script)) : Link .script (b ++ (w ++ (c ++ i))) k g i
  | name {i : Text} (b w : Text) (hb : Blank b) (hw : IsLabel w) (he : endsIdentifier i = true) : Link .prop (b ++ (w ++ i)) (.string w) .script i
  | arrow {i : Text} (b : Text) (hb : Blank b) : Link .prop (b ++ (c!"->" ++ i)) (.k .ObjectOp) .prop i
  | none {i i' : Text} {k : Token} {g : Region} (b : Text) (hb : Blank b) (hr : startsBlank i = false) (hn : noIdentifier i)
      (ha : ¬ c!"->" <+: i) (h : Link .script i k g i') : Link .prop (b ++ i) k g i'

theorem Link.back {g g' : Region} {i i' s r : Text} {k : Token} {ts : List Token} (h : Link g i k g' i') (e : i' = s ++ r) (hs : Inner g' s ts r) :
    ∃ s', i = s' ++ r ∧ Inner g s' (k :: ts) r := by
  induction h with
  | piece b w c hb hc hw hg =>
    subst e
    refine ⟨b ++ w ++ (c ++ s), by simp, ?_⟩
    refine Inner.piece b w _ hb (by simpa using hw) ?_
    rcases hg with ⟨h1, rfl, rfl⟩ | ⟨h1, rfl⟩
    · rw [if_pos h1]; exact hs
    · rw [if_neg h1]; exact hs.blank hc
  | name b w hb hw he =>
    subst e
    exact ⟨b ++ w ++ s, by simp, .propName b w hb hw he hs⟩
  | arrow b hb =>
    subst e
    exact ⟨b ++ c!"->" ++ s, by simp, .propArrow b hb hs⟩
  | none b hb hr hn ha h ih =>
    obtain ⟨s', rfl, h'⟩ := ih e hs
    exact ⟨b ++ s', by simp, .propNone b hb hr hn ha h'⟩

/-- A token of the expression was read, or its closing brace. -/
def BlkStep (code : Text) (g : Region) (i r : Text) (x : TokSpan) (t' : Tz) : Prop :=
  (∃ g' i', Blk code t' g' i' r ∧ Link g i x.tok g' i') ∨
    (t'.code = code ∧ t'.queue = [] ∧ t'.st.state = .doNothing ∧ At t' r ∧ ∃ s, i = s ++ r ∧ Inner g s [x.tok] r)

theorem BlkStep.none {code i b r : Text} {x : TokSpan} {t' : Tz} (h : BlkStep code .script i r x t') (hb : Blank b) (hr : startsBlank i = false)
    (hn : noIdentifier i) (ha : ¬ c!"->" <+: i) : BlkStep code .prop (b ++ i) r x t' := by
  rcases h with ⟨g2, i2, h1, h2⟩ | ⟨h1, h2, h3, h4, s, rfl, h6⟩
  · exact .inl ⟨g2, i2, h1, .none b hb hr hn ha h2⟩
  · exact .inr ⟨h1, h2, h3, h4, b ++ s, by simp, .propNone b hb hr hn ha h6⟩

/-- Every token of an expression between braces is read. -/
structure BlkNext (next : T TokSpan) (code : Text) : Prop where
  step : ∀ t g i r, Blk code t g i r → Twp True True next t (BlkStep code g i r) (fun _ _ => False)
  stop : ∀ t r, t.code = code → t.queue = [] → t.st.state = .doNothing → At t r →
    Twp True True next t (fun _ _ => False) (fun _ t' => t'.code = code ∧ t'.queue = [] ∧ At t' r)

theorem label_ascii {i v q r : Text} (ht : TameAt i r) (e : i = v ++ q) (hv : IsLabel v) : ascii v = true := by
  have hp := label_pass hv
  clear hv
  induction v generalizing i with
  | nil => rfl
  | cons c v ih =>
    subst e
    rcases ht.head with ⟨h, _⟩ | ⟨h, h2⟩ | h
    · exact absurd h (hp c (by simp)).2
    · have h3 := ih h2 rfl fun d hd => hp d (by simp [hd])
      have key : c.toNat < 128 := by
        simp only [codeChar, Bool.or_eq_true, decide_eq_true_eq] at h
        rcases h with h | h
        · exact isIdChar_ascii h
        · have : ∀ c ∈ c!" \t\r\n$-+*%=!&|^~@.,:;>[]()\\", c.toNat < 128 := by decide
          exact this c h
      simpa [ascii, key] using h3
    · exact absurd h (hp c (by simp)).1

theorem scripting_blk {next : T TokSpan} (bfuel : Nat) {i r : Text} (hs : Scr t) (hb : BlkOk next bfuel t) (hst : ¬ HasStray t.code)
    (hi : At t i) (ht : TameAt i r) (hk : t.st.stack = [.doNothing]) :
    Twp True True (inScriptingToken next bfuel) t (BlkStep t.code .script i r) (fun _ _ => False) := by
  refine (scripting_tame bfuel hs hb hst hi ht (by rw [hk]; nofun)).cons ?_ (fun _ _ h => h)
  rintro x t' ⟨b, u, s, rfl, hl, hbb, hts, h⟩
  have hus : u.st.state = .inScripting := hl.mv.state.trans hs.state
  have huk : u.st.stack = [.doNothing] := hl.mv.stack.trans hk
  have hcode : t'.code = t.code := h.code.trans hl.mv.code
  rcases h.read with ⟨q, h1, _⟩ | ⟨w, c, q, h1⟩ | ⟨v, q, h1, h2, _, _, h3⟩
  · have e := hl.mv.at'.unique h1
    subst e
    exact (hts.not (by decide) (by decide) (by decide)).elim
  · have e := hl.mv.at'.unique h1.src
    subst e
    rcases Scrap.tame h1.piece hts with ⟨rfl, hk', e⟩ | ⟨k, hk', hbit, htr, hbr⟩
    · injection hk' with hx hq
      have hq' : t'.queue = [] := by simpa using hq
      refine .inr ⟨hcode, hq', ?_⟩
      rcases h1.stack with h | h | h | h | h
      · exact absurd hq' h
      · rw [hx] at h; cases h
      · rw [hx] at h; cases h.1
      · obtain ⟨_, h2, rfl⟩ := h
        rw [huk] at h2
        injection h2 with h2 _
        have e' : q = r := e
        subst e'
        refine ⟨h2.symm, h1.at', b ++ c!"}", by simp, ?_⟩
        rw [hx]
        exact .close b hbb
      · exact absurd hx h.2.1
    · injection hk' with hx hq
      have hq' : t'.queue = [] := by simpa using hq
      subst hx
      have hcb : TameAt q r := htr.pass (blank_pass h1.blank)
      rcases h1.mode with ⟨m1, _, m2, rfl⟩ | ⟨m1, _⟩
      · have hst' : t'.st.stack = [.inScripting, .doNothing] := by
          rcases h1.stack with h | h | h | h | h
          · exact absurd hq' h
          · rw [m1] at h; cases h
          · rw [h.2, hus, huk]
          · rw [m1] at h; cases h.1
          · exact absurd m1 h.1
        refine .inl ⟨.prop, q, ⟨hcode, hq', h1.at', hcb, .inr ⟨rfl, m2, hst'⟩⟩, ?_⟩
        exact .piece b w [] hbb nofun hbit (.inl ⟨m1, rfl, rfl⟩)
      · have hst' : t'.st.state = .inScripting ∧ t'.st.stack = [.doNothing] := by
          rcases h1.stack with h | h | h | h | h
          · exact absurd hq' h
          · rw [h] at hbr; cases hbr
          · exact absurd h.1 m1
          · rw [h.1] at hbr; cases hbr
          · exact ⟨h.2.2.1.trans hus, h.2.2.2.trans huk⟩
        refine .inl ⟨.script, q, ⟨hcode, hq', h1.at', hcb, .inl ⟨rfl, hst'.1, hst'.2⟩⟩, ?_⟩
        exact .piece b w c hbb h1.blank hbit (.inr ⟨m1, rfl⟩)
  · have e := hl.mv.at'.unique h1
    rw [label_ascii hts e h2] at h3
    cases h3

theorem property_blk {i r : Text} (hs : t.st.state = .lookingForProperty) (hq : t.queue = []) (hi : At t i) (ht : TameAt i r)
    (hk : t.st.stack = [.inScripting, .doNothing]) :
    Twp True True lookingForPropertyToken t (BlkStep t.code .prop i r) (fun e t' => e = .none ∧ t'.st.restart = true ∧
      ∃ b i', Blk t.code t' .script i' r ∧ i = b ++ i' ∧ Blank b ∧ startsBlank i' = false ∧ noIdentifier i' ∧ ¬ c!"->" <+: i') := by
  refine (property_lay hs hk hq).cons ?_ ?_
  · rintro x t' ⟨hq', _, hc, b, w, q, h1, hb, h2, h⟩
    have e := hi.unique h1
    subst e
    rw [List.append_assoc] at ht
    have ht := ht.pass (blank_pass hb)
    rcases h with ⟨rfl, h3, h4, h5⟩ | ⟨h3, h4, h5, h6, h7⟩
    · refine .inl ⟨.prop, q, ⟨hc, hq', h2, ht.pass (by decide), .inr ⟨rfl, h4, h5.trans hk⟩⟩, ?_⟩
      rw [h3, List.append_assoc]
      exact .arrow b hb
    · rw [hk] at h7
      injection h7 with _ h7
      refine .inl ⟨.script, q, ⟨hc, hq', h2, ht.pass (label_pass h3), .inl ⟨rfl, h6, h7.symm⟩⟩, ?_⟩
      rw [h5, List.append_assoc]
      exact .name b w hb h3 h4
  · rintro e u ⟨rfl, hc, hq', hs', hk', hr, b, q, h1, h2, h3, h4, h5, h6⟩
    have e := hi.unique h1
    subst e
    exact ⟨rfl, hr, b, q, ⟨hc, hq', h3, ht.pass (blank_pass h2), .inl ⟨rfl, hs', hk'⟩⟩, rfl, h2, h4, h5, h6⟩

/-- The whole expression is read. -/
theorem BlkNext.loop {next : T TokSpan} {code : Text} (h : BlkNext next code) (fuel : Nat) :
    ∀ t g i r acc, Blk code t g i r → Twp True True (blockLoop next fuel acc) t
      (fun toks u => ∃ w xs, i = w ++ r ∧ Inner g w (xs.map TokSpan.tok) r ∧ toks = acc ++ xs ∧ At u r ∧ u.code = code ∧ u.queue = [])
      (fun _ _ => False) := by
  induction fuel with
  | zero => exact fun _ _ _ _ _ _ => trivial
  | succ fuel ih =>
    intro t g i r acc hb
    have h1 := h.step t g i r hb
    unfold Twp at h1 ⊢
    unfold blockLoop
    cases hn : next t with
    | panic p => exact fun _ => trivial
    | oof => exact trivial
    | err e u => rw [hn] at h1; exact h1.elim
    | ok x u =>
      rw [hn] at h1
      dsimp only
      rcases h1 with ⟨g', i', h2, h3⟩ | ⟨h2, h3, h4, h5, s, h6, h7⟩
      · refine Twp.cons (m := blockLoop next fuel (acc ++ [x])) (ih u g' i' r _ h2) ?_ (fun _ _ h => h)
        rintro toks v ⟨w, xs, rfl, k1, rfl, k2, k3, k4⟩
        obtain ⟨s', e, hin⟩ := h3.back rfl k1
        exact ⟨s', x :: xs, e, hin, by simp, k2, k3, k4⟩
      · cases fuel with
        | zero => exact trivial
        | succ fuel =>
          have h8 := h.stop u r h2 h3 h4 h5
          unfold Twp at h8
          unfold blockLoop
          cases hn : next u with
          | panic p => exact fun _ => trivial
          | oof => exact trivial
          | ok y v => rw [hn] at h8; exact h8.elim
          | err e v =>
            rw [hn] at h8
            exact ⟨s, [x], h6, h7, rfl, h8.2.2, h8.1, h8.2.1⟩

theorem BlkNext.blocks {next : T TokSpan} {code : Text} (h : BlkNext next code) (hw : ¬ HasWild code) (fuel : Nat) : Blocks next fuel code := by
  intro u s acc hc hq hs hk ha ⟨pre, ho⟩
  have ht : ∃ r, TameAt s r := by
    rcases ho with ⟨ho, q, rfl⟩ | ho
    · obtain ⟨r, w, rfl, ht⟩ := wild_at (pre := pre) (rest := q) hw (.inl (by rw [ho]; simp))
      exact ⟨r, '$' :: w, rfl, .code '$' (by decide) ht⟩
    · exact wild_at hw (.inr ho)
  obtain ⟨r, ht⟩ := ht
  refine (h.loop fuel u .script s r acc ⟨hc, hq, ha, ht, .inl ⟨rfl, hs, hk⟩⟩).cons ?_ (fun _ _ h => h)
  rintro toks v ⟨w, xs, k1, k2, k3, k4, k5, k6⟩
  exact ⟨w, r, xs, k1, k2, k3, k4, k5, k6⟩

theorem blkNext_all {code : Text} (hw : ¬ HasWild code) (hst : ¬ HasStray code) : ∀ fuel, BlkNext (nextToken fuel) code := by
  intro fuel
  induction fuel with
  | zero => exact ⟨fun _ _ _ _ _ => trivial, fun _ _ _ _ _ _ => trivial⟩
  | succ fuel ih =>
    refine ⟨fun t g i r hb => ?_, fun t r hc hq hs ha => ?_⟩
    · obtain ⟨rfl, hq, ha, ht, hm⟩ := hb
      rcases hm with ⟨rfl, hs, hk⟩ | ⟨rfl, hs, hk⟩
      · refine next_state (by rw [hs]; nofun) (by rw [hs]) ?_
        have hsc : Scr t := ⟨hs, hq, by rw [hk]; simp⟩
        exact (scripting_blk fuel hsc ⟨hq, ih.blocks hw fuel⟩ hst ha ht hk).cons (fun _ _ h => h) (fun _ _ h => h.elim)
      · refine next_state (by rw [hs]; nofun) (by rw [hs]) ?_
        refine (property_blk hs hq ha ht hk).cons (fun _ _ h => h) ?_
        rintro e u ⟨rfl, hr, b, i', hb, rfl, f1, f2, f3, f4⟩
        refine ⟨fun _ _ => ?_, fun _ h => by (rw [hr] at h; cases h), fun h => absurd rfl h⟩
        have hb' : Blk t.code { u with st := { u.st with restart := false } } .script i' r := ⟨hb.code, hb.queue, hb.at', hb.tame, hb.mode⟩
        exact (ih.step _ _ _ _ hb').cons (fun _ _ h => h.none f1 f2 f3 f4) (fun _ _ h => h)
    · refine next_state (step := fail .none) (by rw [hs]; nofun) (by rw [hs]; rfl) ?_
      refine ⟨fun _ _ => ?_, fun _ _ => ⟨hc, hq, ha⟩, fun h => absurd rfl h⟩
      exact (ih.stop { t with st := { t.st with restart := false } } r hc hq hs ha)

end
end Pico
