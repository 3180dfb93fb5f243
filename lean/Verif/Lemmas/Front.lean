import Verif.Props.Scan
import Verif.Lemmas.ParserRelStmt
/-!
# The first tokens of a source

Text before the first open tag becomes a token at the beginning of the source. All other tokens but open tags (and
numbers, whose positions are not reliable) start behind the first two bytes.
-/
namespace Pico
open T P

/-- Where tokens other than the leading text start. -/
def Clear (y : TokSpan) : Prop :=
  isNumber y.tok = false → y.tok = .k .OpenTag ∨ y.tok = .k .OpenTagWithEcho ∨ 2 ≤ y.span.start

/-- A token read outside of a script. -/
inductive Opening (t : Tz) (x : TokSpan) (t' : Tz) : Prop
  | done (h : x.tok = .k .End)
  | tag (h : x.tok = .k .OpenTag ∨ x.tok = .k .OpenTagWithEcho) (hp : 2 ≤ t'.st.srcPos)
  | html (s : Text) (h : x.tok = .inlineHtml s) (hno : ∀ i, At t i → startsWithCi i c!"<?" = false)
      (hs : t'.st.state = .initial) (hn : ∃ i, At t' i ∧ (i = [] ∨ startsWithCi i c!"<?" = true))

section
variable {t : Tz}

theorem initial_open (hs : t.st.state = .initial) :
    Twp True True initialToken t (Opening t) (fun _ _ => True) := by
  unfold initialToken
  refine Twp.bind (tw_input fun i hat => ?_)
  refine Twp.ite (fun he => ?_) (fun he => ?_)
  · refine Twp.bind (m := modSt _) (Twp.of_ok rfl ?_)
    exact .done rfl
  · have tagw : ∀ e : Entry, e.act = .set .inScripting → (e.kw = .OpenTag ∨ e.kw = .OpenTagWithEcho) → 2 ≤ byteLen e.text →
        Twp True True (matchTok e) t (Opening t) (fun e' t' => NoMatch t e' t' ∧ ∀ i, At t i → startsWithCi i e.text = false) := by
      intro e ha hk hl
      unfold matchTok
      refine Twp.bind (tw_input fun i hi => ?_)
      refine Twp.ite (fun hm => ?_) (fun hm => ⟨⟨rfl, rfl⟩, fun j hj => ?_⟩)
      rotate_left
      · rw [Option.some.inj (hj.symm.trans hi)]
        simpa using hm
      refine Twp.bind (tw_inputPos ?_)
      refine Twp.bind (tw_advBytes' hi fun a b hab hl' _ => ?_)
      refine Twp.bind (tw_inputPos ?_)
      rw [ha]
      refine Twp.bind (m := Act.run _) (Twp.of_ok rfl ?_)
      refine .tag ?_ ?_
      · exact hk.imp (fun h => by rw [h]) (fun h => by rw [h])
      · show 2 ≤ t.st.srcPos + byteLen e.text
        omega
    have nx : ∀ {m n : T TokSpan} {P : Prop} {E}, Twp True True m t (Opening t) (fun e t' => NoMatch t e t' ∧ P) →
        (P → Twp True True n t (Opening t) E) → Twp True True (m <||> n) t (Opening t) E := by
      intro m n P E h1 h2
      refine Twp.orElse (h1.cons (fun _ _ h => h) ?_)
      rintro e' t' ⟨⟨rfl, rfl⟩, hp⟩
      exact ⟨fun _ => h2 hp, fun h => absurd rfl h⟩
    refine nx (P := startsWithCi i c!"<?" = false) ?_ (fun hsw => ?_)
    · refine nx (tagw _ rfl (.inr rfl) (by decide)) fun _ => nx (tagw _ rfl (.inl rfl) (by decide)) fun _ =>
        nx (tagw _ rfl (.inl rfl) (by decide)) fun h => ?_
      exact ⟨⟨rfl, rfl⟩, by rw [h i hat]⟩
    · refine Twp.bind (Twp.of_ok (input_at hat) ?_)
      dsimp only
      have key : ∀ ep : Nat, (∀ a b : Text, i = a ++ b → byteLen a = ep → b = [] ∨ startsWithCi b c!"<?" = true) →
          Twp True True (if (ep != 0) = true then (do
            let p ← inputPos
            let s ← advanceBytes ep
            return ⟨.inlineHtml s, mkSpan p (p + ep)⟩)
          else endToken : T TokSpan) t (Opening t) (fun _ _ => True) := by
        intro ep hne
        refine Twp.ite (fun _ => ?_) (fun hz => .done rfl)
        refine Twp.bind (tw_inputPos ?_)
        refine Twp.bind (tw_advBytes' hat fun a b hab hl' hb => ?_)
        exact .html a rfl (fun j hj => by rw [Option.some.inj (hj.symm.trans hat)]; exact hsw) hs ⟨b, hb, hne a b hab hl'⟩
      cases hb : beforeSub c!"<?" i with
      | none =>
        refine key _ fun a b hab hl => .inl ?_
        change byteLen a = byteLen i at hl
        rw [hab, byteLen_append] at hl
        cases b with
        | nil => rfl
        | cons c r =>
          have := byteLen_pos (show (c :: r : Text) ≠ [] from nofun)
          omega
      | some pre =>
        refine key _ fun a b hab hl => .inr ?_
        obtain ⟨r, hr⟩ := beforeSub_split hb
        change byteLen a = byteLen pre at hl
        have e := dropBytes_append a b
        rw [← hab, hl, hr, dropBytes_append] at e
        rw [← Option.some.inj e]
        cases r <;> rfl

/-- A token read outside of a script. -/
theorem next_opening {n : Nat} {x : TokSpan} {t' : Tz} (hi : Inv t) (hs : t.st.state = .initial)
    (h : nextToken n t = .ok x t') : Opening t x t' := by
  cases n with
  | zero => cases h
  | succ n =>
    have hw : Twp True True (nextToken (n + 1)) t (Opening t) (fun _ _ => True) := by
      refine next_state (step := initialToken) (by rw [hs]; nofun) (by rw [hs]; rfl) ?_
      have h1 := initial_wp (U := True) (B := True) hi hs
      have h2 := initial_open hs
      unfold Twp at *
      revert h1 h2
      cases initialToken t with
      | ok x t' => exact fun _ h => h
      | err e t' => exact fun h => h.elim
      | panic p => exact fun _ h => h
      | oof => exact fun _ h => h
    unfold Twp at hw
    rw [h] at hw
    exact hw

end

/-- The tokens of a source: perhaps a text, then tokens behind the first two bytes and open tags. -/
inductive Fronted : List TokSpan → Prop
  | plain {b : List TokSpan} (h : ∀ y ∈ b, Clear y) : Fronted b
  | html (s : Text) (sp : Span) {b : List TokSpan} (h : ∀ y ∈ b, Clear y) : Fronted (⟨.inlineHtml s, sp⟩ :: b)

theorem lexAll_fronted {fuel : Nat} : ∀ (n : Nat) (t : Tz) (acc toks : List TokSpan) (t' : Tz), Inv t →
    lexAll fuel n t acc = .ok (toks, t') → ∃ b, toks = acc ++ b ∧ (2 ≤ t.st.srcPos → ∀ y ∈ b, Clear y) ∧
      (t.st.state = .initial → ∀ i, At t i → (i = [] ∨ startsWithCi i c!"<?" = true) → ∀ y ∈ b, Clear y) ∧
      (t.st.state = .initial → Fronted b) := by
  intro n
  induction n with
  | zero => intro t acc toks t' _ h; cases h
  | succ n ih =>
    intro t acc toks t' hi h
    unfold lexAll at h
    cases hn : nextToken fuel t with
    | err e t1 => rw [hn] at h; cases h
    | panic p => rw [hn] at h; cases h
    | oof => rw [hn] at h; cases h
    | ok x t1 =>
      rw [hn] at h
      dsimp only at h
      split at h
      · cases h
        exact ⟨[], by simp, fun _ => nofun, fun _ _ _ _ => nofun, fun _ => .plain nofun⟩
      · rename_i hne
        have post := next_ok hi hn
        obtain ⟨b, hb, h1, h2, h3⟩ := ih t1 (acc ++ [x]) toks t' post.inv h
        have hop := fun hs => next_opening hi hs hn
        have cons : Clear x → (∀ y ∈ b, Clear y) → ∀ y ∈ x :: b, Clear y := by
          intro hx hb y hy
          rcases List.mem_cons.1 hy with rfl | hy
          · exact hx
          · exact hb y hy
        refine ⟨x :: b, by rw [hb]; simp, fun hp => ?_, fun hs i hat hor => ?_, fun hs => ?_⟩
        · exact cons (fun hx => .inr (.inr (post.late.two hp hx))) (h1 (Nat.le_trans hp post.le))
        · cases hop hs with
          | done h => exact absurd h hne
          | tag h hp => exact cons (fun _ => h.elim .inl fun h => .inr (.inl h)) (h1 hp)
          | html s hx hno hs' hnx =>
            rcases hor with rfl | hor
            · exfalso
              rcases post.prog with h | h | ⟨-, h⟩
              · exact hne h
              · have := hat.total
                have h4 := hnx
                obtain ⟨j, hj, -⟩ := h4
                have := hj.total
                rw [post.code] at this
                simp only [byteLen] at *
                omega
              · rw [hi.queue (by rw [hs]; nofun)] at h
                exact absurd h (Nat.not_lt_zero _)
            · rw [hno i hat] at hor
              cases hor
        · cases hop hs with
          | done h => exact absurd h hne
          | tag h hp => exact .plain (cons (fun _ => h.elim .inl fun h => .inr (.inl h)) (h1 hp))
          | html s hx hno hs' hnx =>
            obtain ⟨j, hj, hor⟩ := hnx
            obtain ⟨tok, sp⟩ := x
            dsimp only at hx
            subst hx
            exact .html s sp (h2 hs' j hj hor)

theorem spans_fronted {n : Nat} {src : Text} {ts : List TokSpan} (h : spansOf n src = some ts) : Fronted ts := by
  unfold spansOf at h
  cases hl : lexAll n n (Tz.new src) [] with
  | ok y =>
    obtain ⟨toks, t⟩ := y
    rw [hl] at h
    cases h
    obtain ⟨b, h1, -, -, h2⟩ := lexAll_fronted n _ _ _ _ (inv_new src) hl
    rw [h1]
    exact h2 rfl
  | err e => rw [hl] at h; cases h
  | panic p => rw [hl] at h; cases h
  | oof => rw [hl] at h; cases h

/-! ## What the parser gets -/

/-- All tokens but numbers and `echo` start behind the first two bytes. -/
def Back (ps : List TokSpan) : Prop := ∀ y ∈ ps, isNumber y.tok = false → y.tok ≠ .k .Echo → 2 ≤ y.span.start

theorem stripToken_back {x : TokSpan} (h : Clear x) : Back (stripToken x) := by
  obtain ⟨tok, sp⟩ := x
  intro y hy hn he
  unfold stripToken at hy
  have plain : isNumber tok = false → tok ≠ .k .OpenTag → tok ≠ .k .OpenTagWithEcho → 2 ≤ sp.start := by
    intro h1 h2 h3
    rcases h h1 with h | h | h
    · exact absurd h h2
    · exact absurd h h3
    · exact h
  cases tok with
  | k k =>
    by_cases h1 : k = .OpenTag
    · subst h1; simp at hy
    by_cases h2 : k = .OpenTagWithEcho
    · subst h2
      simp at hy
      subst hy
      exact absurd rfl he
    have := plain rfl (by simpa using h1) (by simpa using h2)
    cases k <;> simp at hy <;> (try subst hy) <;> exact this
  | comment s => cases hy
  | inlineHtml s =>
    have := plain rfl nofun nofun
    simp at hy
    rcases hy with rfl | rfl | rfl <;> exact this
  | _ => simp at hy; subst hy; exact plain hn nofun nofun

theorem strip_back {ts : List TokSpan} (h : ∀ y ∈ ts, Clear y) : Back (stripTokens ts) := by
  induction ts with
  | nil => exact nofun
  | cons x ts ih =>
    intro y hy
    rcases List.mem_append.1 hy with hy | hy
    · exact stripToken_back (h x (by simp)) y hy
    · exact ih (fun y hy => h y (by simp [hy])) y hy

/-- The tokens given to the parser. -/
inductive Fore : List TokSpan → Prop
  | plain {b : List TokSpan} (h : Back b) : Fore b
  | html (s : Text) (sp : Span) {b : List TokSpan} (h : Back b) :
      Fore (⟨.k .Echo, sp⟩ :: ⟨.encaps s, sp⟩ :: ⟨.k .SemiColon, sp⟩ :: b)

theorem Fronted.fore {ts : List TokSpan} (h : Fronted ts) : Fore (stripTokens ts) := by
  cases h with
  | plain h => exact .plain (strip_back h)
  | html s sp h => exact .html s sp (strip_back h)

theorem Env.of [Lo] {ts us : List TokSpan} (h : ts.map TokSpan.tok = us.map TokSpan.tok) (hp : Back (ts.drop Lo.val))
    (hq : Back (us.drop Lo.val)) : Env ts us := by
  have hl : ts.length = us.length := by simpa using congrArg List.length h
  have ht : ∀ i : Nat, ts[i]?.map TokSpan.tok = us[i]?.map TokSpan.tok := by
    intro i
    have := congrArg (fun l => l[i]?) h
    simpa using this
  refine ⟨hl, ht, fun i hlo => ?_⟩
  have e := ht i
  have mem : ∀ {l : List TokSpan} {x : TokSpan}, l[i]? = some x → x ∈ l.drop Lo.val := by
    intro l x hx
    have : (l.drop Lo.val)[i - Lo.val]? = some x := by
      rw [List.getElem?_drop, Nat.add_sub_cancel' hlo, hx]
    exact List.mem_of_getElem? this
  cases h1 : ts[i]? with
  | none =>
    cases h2 : us[i]? with
    | none => exact .none
    | some y => rw [h1, h2] at e; cases e
  | some x =>
    cases h2 : us[i]? with
    | none => rw [h1, h2] at e; cases e
    | some y =>
      have p1 := hp x (mem h1)
      have p2 := hq y (mem h2)
      rw [h1, h2] at e
      obtain ⟨tok, sp⟩ := x
      obtain ⟨tok', sp'⟩ := y
      injection e with e
      dsimp only at e
      subst e
      exact .some (.mk _ p1 p2)

/-! ## The statement for the leading text -/

set_option maxRecDepth 10000 in
theorem first_echo (n : Nat) (s : Text) (a b c : Span) (rest : List TokSpan) :
    ∃ x y, parseTopStatement (recN (n + 1)) (⟨.k .Echo, a⟩ :: ⟨.encaps s, b⟩ :: ⟨.k .SemiColon, c⟩ :: rest) 0 =
      .ok (.mk (.echo [.mk (.str s) x]) y) 3 := ⟨_, _, rfl⟩

theorem first_oof (s : Text) (a b c : Span) (rest : List TokSpan) :
    parseTopStatement (recN 0) (⟨.k .Echo, a⟩ :: ⟨.encaps s, b⟩ :: ⟨.k .SemiColon, c⟩ :: rest) 0 = .oof := rfl

/-- A leading text is one statement; the parser goes on behind it. -/
theorem first_list (n : Nat) (s : Text) (a b c : Span) (rest : List TokSpan) :
    ∃ x y, parseTopStatementList (recN (n + 1)) (⟨.k .Echo, a⟩ :: ⟨.encaps s, b⟩ :: ⟨.k .SemiColon, c⟩ :: rest) 0 =
      loopN (topRound (recN (n + 1)) (rest.length + 2)) (rest.length + 4) [.mk (.echo [.mk (.str s) x]) y]
        (⟨.k .Echo, a⟩ :: ⟨.encaps s, b⟩ :: ⟨.k .SemiColon, c⟩ :: rest) 3 := by
  obtain ⟨x, y, h⟩ := first_echo n s a b c rest
  refine ⟨x, y, ?_⟩
  have e : parseTopStatementList (recN (n + 1)) (⟨.k .Echo, a⟩ :: ⟨.encaps s, b⟩ :: ⟨.k .SemiColon, c⟩ :: rest) 0 =
      loopN (topRound (recN (n + 1)) (rest.length + 2)) (rest.length + 4 + 1) []
        (⟨.k .Echo, a⟩ :: ⟨.encaps s, b⟩ :: ⟨.k .SemiColon, c⟩ :: rest) 0 := by
    unfold parseTopStatementList
    show P.bnd tokCount _ _ _ = _
    unfold P.bnd tokCount
    dsimp only
    show P.bnd (subP _ _) _ _ _ = _
    unfold P.bnd subP
    rw [if_pos (by simp)]
    rfl
  rw [e]
  have hs : topRound (recN (n + 1)) (rest.length + 2) []
      (⟨.k .Echo, a⟩ :: ⟨.encaps s, b⟩ :: ⟨.k .SemiColon, c⟩ :: rest) 0 = .ok (.inl [.mk (.echo [.mk (.str s) x]) y]) 3 := by
    unfold topRound
    show P.bnd getPos _ _ _ = _
    unfold P.bnd getPos
    dsimp only
    rw [if_pos (Nat.zero_le _)]
    show P.bnd _ _ _ _ = _
    unfold P.bnd
    rw [h]
    rfl
  conv => lhs; unfold loopN
  show P.bnd _ _ _ _ = _
  unfold P.bnd
  rw [hs]

theorem first_list_oof (s : Text) (a b c : Span) (rest : List TokSpan) :
    parseTopStatementList (recN 0) (⟨.k .Echo, a⟩ :: ⟨.encaps s, b⟩ :: ⟨.k .SemiColon, c⟩ :: rest) 0 = .oof := rfl

/-- The outcome of two token lists that differ in positions only. -/
theorem list_rel (n : Nat) {ts us : List TokSpan} (h : ts.map TokSpan.tok = us.map TokSpan.tok) (hf : Fore ts) (hg : Fore us) :
    ∃ l : Lo, @RRel l _ _ (Alike eraseStmts) (parseTopStatementList (recN n) ts 0) (parseTopStatementList (recN n) us 0) := by
  have key : ∀ (s : Text) (a b c a' b' c' : Span) (r r' : List TokSpan), r.map TokSpan.tok = r'.map TokSpan.tok → Back r → Back r' →
      ∃ l : Lo, @RRel l _ _ (Alike eraseStmts)
        (parseTopStatementList (recN n) (⟨.k .Echo, a⟩ :: ⟨.encaps s, b⟩ :: ⟨.k .SemiColon, c⟩ :: r) 0)
        (parseTopStatementList (recN n) (⟨.k .Echo, a'⟩ :: ⟨.encaps s, b'⟩ :: ⟨.k .SemiColon, c'⟩ :: r') 0) := by
    intro s a b c a' b' c' r r' he hb hb'
    let l : Lo := ⟨3⟩
    refine ⟨l, ?_⟩
    cases n with
    | zero => rw [first_list_oof, first_list_oof]; exact .oof
    | succ n =>
      obtain ⟨x, y, h1⟩ := first_list n s a b c r
      obtain ⟨x', y', h2⟩ := first_list n s a' b' c' r'
      have hl : r.length = r'.length := by simpa using congrArg List.length he
      rw [h1, h2, hl]
      have ha : Alike eraseStmts [Stmt.mk (.echo [.mk (.str s) x]) y] [Stmt.mk (.echo [.mk (.str s) x']) y'] := ⟨rfl⟩
      refine (PRel.loopN (topRound_rel (recN_rel (n + 1)) _) _ _ _ ha).run _ _ (.of ?_ ?_ ?_) 3 (Nat.le_refl _)
      · simp [he]
      · exact hb
      · exact hb'
  have three : ∀ {l : List TokSpan} {s : Text} {m : List Token},
      l.map TokSpan.tok = .k .Echo :: .encaps s :: .k .SemiColon :: m →
      ∃ a b c r, l = ⟨.k .Echo, a⟩ :: ⟨.encaps s, b⟩ :: ⟨.k .SemiColon, c⟩ :: r ∧ r.map TokSpan.tok = m := by
    intro l s m h
    match l, h with
    | [], h => cases h
    | [_], h => simp at h
    | [_, _], h => simp at h
    | ⟨t1, a⟩ :: ⟨t2, b⟩ :: ⟨t3, c⟩ :: r, h =>
      simp only [List.map_cons, List.cons.injEq] at h
      obtain ⟨rfl, rfl, rfl, h⟩ := h
      exact ⟨a, b, c, r, rfl, h⟩
  have tail : ∀ {x y z : TokSpan} {r : List TokSpan}, Back (x :: y :: z :: r) → Back r :=
    fun h y hy => h y (by simp [hy])
  cases hf with
  | plain hb =>
    cases hg with
    | plain hb' =>
      let l : Lo := ⟨0⟩
      exact ⟨l, (parseTopStatementList_rel (recN_rel n)).run _ _ (.of h hb hb') 0 (Nat.le_refl _)⟩
    | html s sp hb' =>
      obtain ⟨a, b, c, r, rfl, e⟩ := three (l := ts) (by rw [h]; rfl)
      exact key s a b c sp sp sp _ _ e (tail hb) hb'
  | html s sp hb =>
    obtain ⟨a, b, c, r, rfl, e⟩ := three (l := us) (by rw [← h]; rfl)
    refine key s sp sp sp a b c _ _ e.symm hb ?_
    cases hg with
    | plain hb' => exact tail hb'
    | html s sp hb' => exact hb'

end Pico
