import Verif.Lemmas.LineBase
import Verif.Lemmas.LexPanicStr
/-!
# Counting lines: strings
-/
namespace Pico
open T

section
variable {src : Text} {t : Tz} {E : SyntaxErr → Tz → Prop}

/-! ## Escapes -/

theorem tl_escape {i : Text} (bytes : List Byte) (sq : Bool) (hk : Counted src) (hc : t.code = src) (hi : At t i) (hh : i.head? = some '\\') :
    Tl (strEscape bytes sq) t (fun _ t' => Mw src t t') (fun e t' => t' = t ∧ ∃ what b, e = .unterminated what (mkSpan t.st.srcPos b) ∧ t.st.srcPos ≤ b) := by
  unfold strEscape
  refine Tp.bind (Tp.of_ok (input_at hi) ?_)
  cases hx : i[1]? with
  | none => exact Tp.bind (tp_inputPos (Tp.of_err rfl ⟨rfl, _, _, rfl, Nat.le_succ _⟩))
  | some x =>
    dsimp only
    obtain ⟨r, hr⟩ : ∃ r, i = '\\' :: x :: r := by
      obtain ⟨i, rfl⟩ := head_split hh
      cases i with
      | nil => cases hx
      | cons y i =>
        have : y = x := by simpa using hx
        subst this
        exact ⟨i, rfl⟩
    have hxn : x ≠ '\n' := by
      rintro rfl
      apply hk.escape
      rw [← hc]
      have : At t (c!"\\\n" ++ r) := by rw [hr] at hi; exact hi
      exact this.infix
    have done : ∀ bs E, Tl (escDone bs) t (fun _ t' => Mw src t t') E := by
      intro bs E
      unfold escDone
      have h2 : At t (['\\', x] ++ r) := by rw [hr] at hi; exact hi
      refine Tp.bind (tp_advChars' h2 rfl fun _ => Mw.adv hc h2 ?_)
      simp [hxn.symm]
    repeat' (first | exact done _ _ | refine Tp.ite (fun _ => ?_) (fun _ => ?_))
    all_goals first | trivial | skip
    rename_i hX h0 hlen
    obtain ⟨w, b, rfl, w1, w2, w3, w4⟩ := hexEnd_split hh hx (by simpa using h0)
    cases fromStrRadix 255 16 ((('\\' :: x :: (w ++ b)).take (hexEnd ('\\' :: x :: (w ++ b)) + 1)).drop 2) with
    | none => trivial
    | some v =>
      have h2 : At t (('\\' :: x :: w) ++ b) := hi
      refine Tp.bind (tp_advChars' h2 (by simp only [List.length_cons]; omega) fun _ => Mw.adv hc h2 ?_)
      simp only [List.mem_cons, not_or]
      refine ⟨by decide, hxn.symm, fun hm => ?_⟩
      have := w3 _ hm
      cases this

/-! ## Strings in single quotes -/

theorem Mw.restore {t0 t : Tz} (hc : t0.code = src) (h : Mw src t0 t) : Mw src t0 { t with st := t0.st } :=
  ⟨h.code, h.queue, rfl, rfl, Nat.le_refl _, by rw [lineGap_self, List.append_nil]⟩

theorem tl_sqLoop (hk : Counted src) {t0 : Tz} (hc0 : t0.code = src) (fuel : Nat) (bytes : List Byte) (t : Tz) (h : Mw src t0 t) :
    Tl (sqLoop t0.st fuel bytes) t (fun _ t' => Mw src t0 t') (Al src t0) := by
  induction fuel generalizing bytes t with
  | zero => exact trivial
  | succ fuel ih =>
    unfold sqLoop
    refine Tp.bind (tl_input fun i hi => ?_)
    dsimp only
    have h3 : '\n' ∉ i.take ((position (fun x => x == '\\' || x == '\'' || x == '\n') i).getD i.length) :=
      not_mem_take_position (Nat.le_refl _) (by decide)
    generalize (position (fun x => x == '\\' || x == '\'' || x == '\n') i).getD i.length = k at *
    refine Tp.bind (tp_advChars hi fun hi2 => ?_)
    have m1 := h.trans (Mw.adv h.code (hi.parted k) h3)
    refine Tp.bind (Tp.of_ok (input_at hi2) ?_)
    generalize hr : i.drop _ = r at *
    split
    · rename_i hh
      obtain ⟨q, rfl⟩ := head_split hh
      refine Tp.bind (tp_advBytes hi2 rfl fun hi3 => ?_)
      refine Tp.bind (m := modSt _) (Tp.of_ok rfl ?_)
      exact ih _ _ (m1.trans (Mw.nl m1.code hi2))
    · rename_i hh
      refine Tp.bind ((tl_escape _ true hk m1.code hi2 hh).cons ?_ ?_)
      · rintro bs t' m2
        exact ih _ _ (m1.trans m2)
      · rintro e t' ⟨rfl, what, b, rfl, hb⟩
        exact Al.here m1 hb
    · rename_i hh
      obtain ⟨q, rfl⟩ := head_split hh
      exact Tp.bind (tp_advBytes hi2 rfl fun hi3 => m1.trans (Mw.adv h.code hi2 (by decide)))
    · refine Tp.bind (tp_inputPos ?_)
      refine Tp.bind (m := setSt _) (Tp.of_ok rfl ?_)
      exact Tp.of_err rfl (Al.here (Mw.restore hc0 m1) (Nat.le_succ_of_le m1.le))

theorem bytesToken_end (bytes : List Byte) : bytesToken bytes ≠ .k .End := by
  unfold bytesToken
  split <;> nofun

theorem tl_sqString (hk : Counted src) (hc : t.code = src) : Tl matchSqString t (Pw src t) (Al src t) := by
  unfold matchSqString
  refine Tp.bind (tl_input fun i hi => ?_)
  refine Tp.ite (fun _ => Al.refl hc) (fun _ => ?_)
  refine Tp.bind (m := getSt) (Tp.of_ok rfl ?_)
  dsimp only
  have body : ∀ t1, Mw src t t1 → Tl (do
      let bytes ← sqLoop t.st (i.length + 1) []
      let p ← inputPos
      return (⟨bytesToken bytes, mkSpan t.st.srcPos p⟩ : TokSpan)) t1 (Pw src t) (Al src t) := by
    intro t1 m1
    refine Tp.bind ((tl_sqLoop hk hc _ _ t1 m1).cons (fun _ t' m2 => ?_) (fun _ _ h => h))
    exact Tp.bind (tp_inputPos (show Pw src t _ _ from ⟨m2, fun h => absurd h (bytesToken_end _)⟩))
  refine Tp.ite (fun h => ?_) (fun _ => Tp.ite (fun h => ?_) (fun _ => Al.refl hc))
  · obtain ⟨r, rfl⟩ := startsWith_split h
    exact Tp.bind (tp_advBytes hi rfl fun hi2 => body _ (Mw.adv hc hi (by decide)))
  · obtain ⟨r, rfl⟩ := startsWith_split h
    exact Tp.bind (tp_advBytes hi rfl fun hi2 => body _ (Mw.adv hc hi (by decide)))

/-! ## Blocks -/

/-- An end token has been delivered only at the end of the source. -/
def EndOk (src : Text) (ts : List TokSpan) (p : Nat) : Prop := ∀ y ∈ ts, y.tok = .k .End → byteLen src ≤ p

theorem EndOk.mono {ts : List TokSpan} {p q : Nat} (h : EndOk src ts p) (hpq : p ≤ q) : EndOk src ts q :=
  fun y hy he => Nat.le_trans (h y hy he) hpq

theorem EndOk.append {ts us : List TokSpan} {p : Nat} (h : EndOk src ts p) (h' : EndOk src us p) : EndOk src (ts ++ us) p := by
  intro y hy
  rw [List.mem_append] at hy
  exact hy.elim (h y) (h' y)

theorem EndOk.one {x : TokSpan} {p : Nat} (h : x.tok ≠ .k .End) : EndOk src [x] p := by
  intro y hy he
  rw [List.mem_singleton] at hy
  subst hy
  exact absurd he h

theorem EndOk.nil {p : Nat} : EndOk src [] p := nofun

/-- Where text outside of the tags may begin. -/
def Outside (src : Text) (p : Nat) : Prop :=
  ∃ a c, src = a ++ c ∧ byteLen a = p ∧ (a = [] ∨ c!"?>" <:+ a ∨ c = [] ∨ c!"<?" <+: c)

/-- What is known between two tokens. -/
structure Ld (src : Text) (t : Tz) : Prop where
  code : t.code = src
  stk : ∀ s ∈ t.st.stack, s ≠ .initial ∧ s ≠ .emitQueue
  queue : t.st.state ≠ .emitQueue → t.queue = []
  qe : EndOk src t.queue t.st.srcPos
  ini : t.st.state = .initial → Outside src t.st.srcPos

/-- The lines met have been entered into the table. -/
structure Ru (src : Text) (t t' : Tz) : Prop where
  le : t.st.srcPos ≤ t'.st.srcPos
  lines : t'.st.lineMap.data = t.st.lineMap.data ++ lineGap src t.st.srcPos t'.st.srcPos

theorem Ru.trans {t t' t'' : Tz} (h : Ru src t t') (h' : Ru src t' t'') : Ru src t t'' :=
  ⟨Nat.le_trans h.le h'.le, by rw [h'.lines, h.lines, List.append_assoc, lineGap_trans h.le h'.le]⟩

theorem Mw.ru {t t' : Tz} (h : Mw src t t') : Ru src t t' := ⟨h.le, h.lines⟩

theorem Mw.ld {t t' : Tz} (h : Mw src t t') (hb : Ld src t) (h1 : t.st.state ≠ .initial) (h2 : t.st.state ≠ .emitQueue) : Ld src t' := by
  have hq := hb.queue h2
  refine ⟨h.code, by rw [h.stack]; exact hb.stk, fun _ => h.queue.trans hq, ?_, ?_⟩
  · rw [h.queue, hq]; exact EndOk.nil
  · rw [h.state]; exact fun h => absurd h h1

/-- A token has been delivered. -/
def Nl (src : Text) (t : Tz) (x : TokSpan) (t' : Tz) : Prop := Ld src t' ∧ Ru src t t' ∧ (x.tok = .k .End → byteLen src ≤ t'.st.srcPos)

/-- An error has been delivered. -/
structure El (src : Text) (t : Tz) (e : SyntaxErr) (t' : Tz) : Prop where
  code : t'.code = src
  queue : t'.queue = []
  ru : Ru src t t'
  span : ∀ sp, e.span = some sp → sp.start ≤ sp.stop ∧ sp.start ≤ t'.st.srcPos ∧ lineGap src sp.start t'.st.srcPos = []

/-- What is needed of the tokenizer called for blocks. -/
def NextL (src : Text) (next : T TokSpan) : Prop := ∀ t, Ld src t → Tl next t (Nl src t) (El src t)

theorem tl_blockLoop {next : T TokSpan} (hn : NextL src next) (fuel : Nat) (acc : List TokSpan) (t : Tz)
    (h : Ld src t) (ha : EndOk src acc t.st.srcPos) : Tl (blockLoop next fuel acc) t
      (fun toks t' => EndOk src toks t'.st.srcPos ∧ t'.code = src ∧ t'.queue = [] ∧ Ru src t t') (fun _ _ => False) := by
  induction fuel generalizing acc t with
  | zero => exact trivial
  | succ fuel ih =>
    have hnx := hn t h
    unfold Tl Tp at hnx
    cases hm : next t with
    | ok tok t' =>
      rw [hm] at hnx
      obtain ⟨h1, h2, h3⟩ := hnx
      have e : blockLoop next (fuel + 1) acc t = blockLoop next fuel (acc ++ [tok]) t' := by
        conv => lhs; unfold blockLoop
        simp only [hm]
      have := (ih (acc ++ [tok]) t' h1 ((ha.mono h2.le).append fun y hy he => by rw [List.mem_singleton] at hy; subst hy; exact h3 he)).cons
        (Q := fun toks t' => EndOk src toks t'.st.srcPos ∧ t'.code = src ∧ t'.queue = [] ∧ Ru src t t') (E := fun _ _ => False)
        (fun toks t2 h4 => ⟨h4.1, h4.2.1, h4.2.2.1, h2.trans h4.2.2.2⟩) (fun _ _ h => h)
      unfold Tp at this
      unfold Tl Tp
      rw [e]
      exact this
    | err e t' =>
      rw [hm] at hnx
      exact Tp.of_ok (a := acc) (t' := t') (by unfold blockLoop; simp only [hm]) ⟨ha.mono hnx.ru.le, hnx.code, hnx.queue, hnx.ru⟩
    | panic p => exact Tp.of_panic (p := p) (by unfold blockLoop; simp only [hm]) trivial
    | oof =>
      unfold Tl Tp blockLoop
      simp only [hm]

theorem tl_flush {p : Nat} (bytes : List Byte) (parts : List TokSpan) (stop : Nat) (h : EndOk src parts p) :
    Tl (flushBytes bytes parts stop) t (fun ps t' => t' = t ∧ EndOk src ps p) E := by
  unfold flushBytes
  refine Tp.ite (fun _ => ⟨rfl, h⟩) (fun _ => ?_)
  exact Tp.bind (tl_subT fun _ => ⟨rfl, h.append (.one (bytesToken_end _))⟩)

/-- Scanning on inside a string. -/
def StrL (src : Text) (t : Tz) (r : List Byte × List TokSpan) (t' : Tz) : Prop := Mw src t t' ∧ EndOk src r.2 t'.st.srcPos

theorem tl_strBlock {next : T TokSpan} (hn : NextL src next) (fuel : Nat) (bytes : List Byte) (parts : List TokSpan)
    (rd : Bool) {r : Text} (hc : t.code = src) (hq : t.queue = []) (hp : EndOk src parts t.st.srcPos) (hi : At t (c!"{" ++ r)) :
    Tl (strBlock next fuel bytes parts rd) t (StrL src t) (fun _ _ => False) := by
  unfold strBlock
  refine Tp.bind (tp_advBytes hi rfl fun hi1 => ?_)
  have m1 := Mw.adv hc hi (by decide)
  have hu := hq
  have hp1 := hp.mono m1.le
  generalize t.adv (byteLen c!"{") = u at *
  refine Tp.bind (Tp.of_ok (input_at hi1) ?_)
  refine Tp.ite (fun _ => ?_) (fun _ => ⟨m1, hp1⟩)
  refine Tp.bind (m := getSt) (Tp.of_ok rfl ?_)
  refine Tp.bind (m := modSt _) (Tp.of_ok rfl ?_)
  refine Tp.bind (tp_inputPos ?_)
  refine Tp.bind (tl_subT fun _ => ?_)
  have hbd : Ld src { u with st := { u.st with state := .inScripting, stack := [.doNothing] } } := by
    refine ⟨m1.code, ?_, fun _ => m1.queue.trans hq, ?_, nofun⟩
    · intro s hs; rw [List.mem_singleton] at hs; subst hs; exact ⟨nofun, nofun⟩
    · show EndOk src u.queue _
      rw [m1.queue, hq]
      exact EndOk.nil
  refine Tp.bind ((tl_blockLoop hn fuel _ _ hbd (.one (by intro h; cases h))).cons ?_ (fun _ _ h => h))
  rintro toks t' ⟨htoks, hc', hq', hru⟩
  have hru : Ru src u t' := ⟨hru.le, hru.lines⟩
  refine Tp.ite (fun _ => ?_) (fun _ => ?_)
  · refine Tp.bind (tl_subT fun _ => ?_)
    refine Tp.bind ((tl_flush bytes parts _ hp1).cons ?_ (fun _ _ h => h))
    rintro ps t'' ⟨rfl, hps⟩
    refine Tp.bind (m := modSt _) (Tp.of_ok rfl ?_)
    have m2 : Mw src u { t'' with st := { t''.st with state := u.st.state, stack := u.st.stack } } :=
      ⟨hc', hq'.trans (m1.queue.trans hq).symm, rfl, rfl, hru.le, hru.lines⟩
    exact ⟨m1.trans m2, (hps.mono hru.le).append htoks⟩
  · refine Tp.bind (m := setSt _) (Tp.of_ok rfl ?_)
    have m2 : Mw src u { t' with st := u.st } :=
      ⟨hc', hq'.trans (m1.queue.trans hq).symm, rfl, rfl, Nat.le_refl _, by rw [lineGap_self, List.append_nil]⟩
    exact ⟨m1.trans m2, hp1⟩

theorem tl_strVariable {next : T TokSpan} (hn : NextL src next) (fuel : Nat) (bytes : List Byte) (parts : List TokSpan)
    {r : Text} (hc : t.code = src) (hq : t.queue = []) (hp : EndOk src parts t.st.srcPos) (hi : At t (c!"$" ++ r)) :
    Tl (strVariable next fuel bytes parts) t (StrL src t) (fun _ _ => False) := by
  unfold strVariable
  refine Tp.bind (tp_advBytes hi rfl fun hi1 => ?_)
  have m1 := Mw.adv hc hi (by decide)
  have hp1 := hp.mono m1.le
  generalize t.adv (byteLen c!"$") = u at *
  refine Tp.bind (Tp.of_ok (input_at hi1) ?_)
  refine Tp.ite (fun hd => ?_) (fun _ => ?_)
  · obtain ⟨r', rfl⟩ := startsWith_split hd
    refine Tp.bind (tp_inputPos ?_)
    refine Tp.bind (tl_subT fun _ => ?_)
    refine Tp.bind ((tl_flush bytes parts _ hp1).cons ?_ (fun _ _ h => h))
    rintro ps t'' ⟨rfl, hps⟩
    refine Tp.bind ((tl_strBlock hn fuel [] ps false m1.code (m1.queue.trans hq) hps hi1).cons ?_ (fun _ _ h => h))
    rintro ⟨bs, ps'⟩ t2 ⟨m2, hps'⟩
    dsimp only at hps' ⊢
    cases hget : ps'[ps.length]? with
    | none => trivial
    | some ts =>
      dsimp only
      refine Tp.ite (fun _ => ?_) (fun _ => trivial)
      refine Tp.bind (tl_subT fun _ => ⟨m1.trans m2, ?_⟩)
      intro y hy he
      rcases List.mem_or_eq_of_mem_set hy with h | rfl
      · exact hps' y h he
      · cases he
  · refine Tp.bind (tl_label ?_ fun w r2 hw hl hat => ?_)
    · exact ⟨m1, hp1⟩
    · dsimp only
      have m2 := m1.trans (Mw.adv m1.code hw (label_free hl))
      refine Tp.bind (Tp.of_ok (input_at hat) ?_)
      refine Tp.bind (Tp.cons (Q' := fun (tmp : List TokSpan) t' => Mw src (u.adv (byteLen w)) t' ∧ EndOk src tmp 0) (E' := fun _ _ => False) ?_ ?_ (fun _ _ h => h))
      · refine Tp.ite (fun _ => trivial) (fun _ => Tp.ite (fun hd => ?_) (fun _ => ⟨Mw.refl m2.code, EndOk.nil⟩))
        obtain ⟨r3, rfl⟩ := startsWith_split hd
        refine Tp.bind (tp_inputPos ?_)
        refine Tp.bind (tp_advBytes hat rfl fun hi4 => ?_)
        have m4 := Keep.adv m2.code hat (by decide)
        refine Tp.bind (tl_label ?_ fun w2 r4 hw2 hl2 hat2 => ?_)
        · exact Tp.bind (m := setPos _) (Tp.of_ok rfl ⟨m4.back.1, EndOk.nil⟩)
        · exact ⟨m4.1.trans (Mw.adv m4.1.code hw2 (label_free hl2)), (EndOk.one (by intro h; cases h)).append (ts := [_]) (.one (by intro h; cases h))⟩
      · rintro tmp t' ⟨m3, htmp⟩
        refine Tp.bind (tl_subT fun _ => ?_)
        refine Tp.bind ((tl_flush bytes parts _ hp1).cons ?_ (fun _ _ h => h))
        rintro ps t'' ⟨rfl, hps⟩
        refine ⟨m2.trans m3, ?_⟩
        have hle := m3.le
        rw [Tz.adv_pos] at hle
        exact ((hps.mono (by omega)).append (.one (by intro h; cases h))).append (htmp.mono (Nat.zero_le _))

/-! ## Interpolated strings -/

theorem tl_dqAdvance (hc : t.code = src) :
    Tl dqAdvance t (fun _ t' => Mw src t t' ∧ ∃ rest, At t' rest) E := by
  unfold dqAdvance
  refine Tp.bind (tl_input fun i hi => ?_)
  split
  · rename_i n hn
    have h3 : '\n' ∉ i.take ((position isDqStop i).getD i.length) := not_mem_take_position (Nat.le_refl _) (by decide)
    rw [hn] at h3
    exact tp_advChars hi fun hi2 => ⟨Mw.adv hc (hi.parted _) h3, _, hi2⟩
  · rename_i hn
    have h3 : '\n' ∉ i.take ((position isDqStop i).getD i.length) := not_mem_take_position (Nat.le_refl _) (by decide)
    rw [hn] at h3
    refine Tp.bind (tl_subT fun _ => tp_advChars hi fun hi2 => ⟨Mw.adv hc (hi.parted _) fun hm => h3 ?_, _, hi2⟩)
    show '\n' ∈ i.take i.length
    rw [List.take_length]
    exact List.mem_of_mem_take hm

theorem tl_dqLoop {next : T TokSpan} (hk : Counted src) (hn : NextL src next) {t0 : Tz} (hc0 : t0.code = src) (hq0 : t0.queue = []) (bfuel fuel : Nat)
    (bytes : List Byte) (parts : List TokSpan) (t : Tz) (h : Mw src t0 t) (hp : EndOk src parts t.st.srcPos) :
    Tl (dqLoop next bfuel t0.st fuel bytes parts) t (StrL src t0) (Al src t0) := by
  induction fuel generalizing bytes parts t with
  | zero => exact trivial
  | succ fuel ih =>
    unfold dqLoop
    refine Tp.bind ((tl_dqAdvance (E := fun _ _ => False) h.code).cons (fun rr u hu => ?_) (fun _ _ h => h.elim))
    obtain ⟨m1, rest, hrest⟩ := hu
    have hc := m1.code
    have hm := h.trans m1
    have hq : u.queue = [] := hm.queue.trans hq0
    have hp1 := hp.mono m1.le
    dsimp only
    refine Tp.bind (Tp.of_ok (input_at hrest) ?_)
    split
    · rename_i hh
      obtain ⟨r, rfl⟩ := head_split hh
      refine Tp.bind (tp_advBytes hrest rfl fun hi3 => ?_)
      refine Tp.bind (m := modSt _) (Tp.of_ok rfl ?_)
      have m2 := Mw.nl hc hrest
      exact ih _ _ _ (hm.trans m2) (hp1.mono m2.le)
    · rename_i hh
      refine Tp.bind ((tl_escape _ false hk hc hrest hh).cons ?_ ?_)
      · exact fun bs t' m2 => ih _ _ _ (hm.trans m2) (hp1.mono m2.le)
      · rintro e t' ⟨rfl, what, b, rfl, hb⟩
        exact Al.here hm hb
    · rename_i hh
      obtain ⟨r, rfl⟩ := head_split hh
      refine Tp.bind (tp_advBytes hrest rfl fun hi3 => ?_)
      have m2 := Mw.adv hc hrest (by decide)
      exact ⟨hm.trans m2, hp1.mono m2.le⟩
    · rename_i hh
      obtain ⟨r, rfl⟩ := head_split hh
      refine Tp.bind ((tl_strVariable hn bfuel (bytes ++ encode rr) parts hc hq hp1 hrest).cons ?_ (fun _ _ h => h.elim))
      rintro ⟨bs, ps⟩ t' ⟨m2, hp2⟩
      exact ih _ _ _ (hm.trans m2) hp2
    · rename_i hh
      obtain ⟨r, rfl⟩ := head_split hh
      refine Tp.bind ((tl_strBlock hn bfuel (bytes ++ encode rr) parts true hc hq hp1 hrest).cons ?_ (fun _ _ h => h.elim))
      rintro ⟨bs, ps⟩ t' ⟨m2, hp2⟩
      exact ih _ _ _ (hm.trans m2) hp2
    · refine Tp.bind (tp_inputPos ?_)
      refine Tp.bind (m := setSt _) (Tp.of_ok rfl ?_)
      exact Tp.of_err rfl (Al.here (Mw.restore hc0 hm) hm.le)

theorem tl_bqLoop {next : T TokSpan} (hn : NextL src next) {t0 : Tz} (hc0 : t0.code = src) (hq0 : t0.queue = []) (bfuel fuel : Nat)
    (bytes : List Byte) (parts : List TokSpan) (t : Tz) (h : Mw src t0 t) (hp : EndOk src parts t.st.srcPos) :
    Tl (bqLoop next bfuel t0.st fuel bytes parts) t (StrL src t0) (Al src t0) := by
  induction fuel generalizing bytes parts t with
  | zero => exact trivial
  | succ fuel ih =>
    unfold bqLoop
    refine Tp.bind ((tl_dqAdvance (E := fun _ _ => False) h.code).cons (fun rr u hu => ?_) (fun _ _ h => h.elim))
    obtain ⟨m1, rest, hrest⟩ := hu
    have hc := m1.code
    have hm := h.trans m1
    have hq : u.queue = [] := hm.queue.trans hq0
    have hp1 := hp.mono m1.le
    dsimp only
    refine Tp.bind (Tp.of_ok (input_at hrest) ?_)
    split
    · rename_i hh
      obtain ⟨r, rfl⟩ := head_split hh
      refine Tp.bind (tp_advBytes hrest rfl fun hi3 => ?_)
      refine Tp.bind (m := modSt _) (Tp.of_ok rfl ?_)
      have m2 := Mw.nl hc hrest
      exact ih _ _ _ (hm.trans m2) (hp1.mono m2.le)
    · rename_i hh
      obtain ⟨r, rfl⟩ := head_split hh
      refine Tp.bind (tp_advBytes hrest rfl fun hi3 => ?_)
      have m2 := Mw.adv hc hrest (by decide)
      exact ⟨hm.trans m2, hp1.mono m2.le⟩
    · rename_i hh
      obtain ⟨r, rfl⟩ := head_split hh
      refine Tp.bind ((tl_strVariable hn bfuel (bytes ++ encode rr) parts hc hq hp1 hrest).cons ?_ (fun _ _ h => h.elim))
      rintro ⟨bs, ps⟩ t' ⟨m2, hp2⟩
      exact ih _ _ _ (hm.trans m2) hp2
    · rename_i hh
      obtain ⟨r, rfl⟩ := head_split hh
      refine Tp.bind ((tl_strBlock hn bfuel (bytes ++ encode rr) parts true hc hq hp1 hrest).cons ?_ (fun _ _ h => h.elim))
      rintro ⟨bs, ps⟩ t' ⟨m2, hp2⟩
      exact ih _ _ _ (hm.trans m2) hp2
    · refine Tp.bind (tp_inputPos ?_)
      refine Tp.bind (m := setSt _) (Tp.of_ok rfl ?_)
      exact Tp.of_err rfl (Al.here (Mw.restore hc0 hm) hm.le)

theorem tl_parts {t0 : Tz} (hb : Ld src t0) (hs : t0.st.state = .inScripting) (h : Mw src t0 t) {a b : TokSpan} (ha : a.tok ≠ .k .End) (hb' : b.tok ≠ .k .End)
    (bytes : List Byte) {parts : List TokSpan} (hp : EndOk src parts t.st.srcPos) : Tl (returnTokensFromParts a b bytes parts) t (Nl src t0) E := by
  unfold returnTokensFromParts
  refine Tp.of_ok rfl ⟨⟨h.code, ?_, fun hne => absurd rfl hne, ?_, nofun⟩, ⟨h.le, h.lines⟩, fun h => absurd h ha⟩
  · intro s hm
    have hm : s ∈ t.st.state :: t.st.stack := hm
    rw [h.state, h.stack, hs, List.mem_cons] at hm
    rcases hm with rfl | hm
    · exact ⟨nofun, nofun⟩
    · exact hb.stk s hm
  · show EndOk src (parts ++ _ ++ t.queue) t.st.srcPos
    rw [h.queue, hb.queue (by rw [hs]; nofun), List.append_nil]
    refine hp.append ?_
    split
    · exact .one hb'
    · exact (EndOk.one (bytesToken_end _)).append (ts := [_]) (.one hb')

theorem tl_dqString {next : T TokSpan} (hk : Counted src) (hn : NextL src next) (bfuel : Nat) (hb : Ld src t) (hs : t.st.state = .inScripting) :
    Tl (matchDqString next bfuel) t (Nl src t) (Al src t) := by
  have hc := hb.code
  have hq := hb.queue (by rw [hs]; nofun)
  unfold matchDqString
  refine Tp.bind (tl_input fun i hi => ?_)
  refine Tp.ite (fun _ => Al.refl hc) (fun _ => ?_)
  refine Tp.bind (m := getSt) (Tp.of_ok rfl ?_)
  dsimp only
  have body : ∀ u, Mw src t u → Tl (do
      let (bytes, parts) ← dqLoop next bfuel t.st (i.length + 1) [] []
      let cur ← inputPos
      let c1 ← subT cur 1
      returnTokensFromParts ⟨.k .DoubleQuote, mkSpan t.st.srcPos (t.st.srcPos + 1)⟩
        ⟨.k .DoubleQuote, mkSpan c1 cur⟩ bytes parts) u (Nl src t) (Al src t) := by
    intro u m1
    refine Tp.bind ((tl_dqLoop hk hn hc hq bfuel _ [] [] u m1 EndOk.nil).cons ?_ (fun _ _ h => h))
    rintro ⟨bytes, parts⟩ t' ⟨m2, hp⟩
    refine Tp.bind (tp_inputPos ?_)
    refine Tp.bind (tl_subT fun _ => ?_)
    exact tl_parts hb hs m2 (by intro h; cases h) (by intro h; cases h) _ hp
  refine Tp.ite (fun h => ?_) (fun _ => Tp.ite (fun h => ?_) (fun _ => Al.refl hc))
  · obtain ⟨r, rfl⟩ := startsWith_split h
    exact Tp.bind (tp_advBytes hi rfl fun hi2 => body _ (Mw.adv hc hi (by decide)))
  · obtain ⟨r, rfl⟩ := startsWith_split h
    exact Tp.bind (tp_advBytes hi rfl fun hi2 => body _ (Mw.adv hc hi (by decide)))

theorem tl_backquote {next : T TokSpan} (hn : NextL src next) (bfuel : Nat) (hb : Ld src t) (hs : t.st.state = .inScripting) :
    Tl (matchBackquote next bfuel) t (Nl src t) (Al src t) := by
  have hc := hb.code
  have hq := hb.queue (by rw [hs]; nofun)
  unfold matchBackquote
  refine Tp.bind (tl_input fun i hi => ?_)
  refine Tp.ite (fun _ => Al.refl hc) (fun _ => Tp.ite (fun h => ?_) (fun _ => Al.refl hc))
  obtain ⟨r, rfl⟩ := startsWith_split h
  refine Tp.bind (m := getSt) (Tp.of_ok rfl ?_)
  refine Tp.bind (tp_advBytes hi rfl fun hi2 => ?_)
  refine Tp.bind ((tl_bqLoop hn hc hq bfuel _ [] [] _ (Mw.adv hc hi (by decide)) EndOk.nil).cons ?_ (fun _ _ h => h))
  rintro ⟨bytes, parts⟩ t' ⟨m2, hp⟩
  refine Tp.bind (tp_inputPos ?_)
  refine Tp.bind (tl_subT fun _ => ?_)
  exact tl_parts hb hs m2 (by intro h; cases h) (by intro h; cases h) _ hp

end
end Pico
