import Verif.Lemmas.Bytes
import Verif.Lemmas.TokRun
/-!
# Running the tokenizer on a known remaining input

`At t i`: the remaining input of `t` is `i`.
-/
namespace Pico
open T

def At (t : Tz) (i : Text) : Prop := dropBytes t.code t.st.srcPos = some i

/-- The state `n` bytes further. -/
def Tz.adv (t : Tz) (n : Nat) : Tz := { t with st := { t.st with srcPos := t.st.srcPos + n } }

@[simp] theorem Tz.adv_zero (t : Tz) : t.adv 0 = t := rfl

theorem Tz.adv_adv (t : Tz) (a b : Nat) : (t.adv a).adv b = t.adv (a + b) := by
  simp [Tz.adv, Nat.add_assoc]

theorem At.adv {t : Tz} {a b : Text} (h : At t (a ++ b)) : At (t.adv (byteLen a)) b := by
  unfold At Tz.adv at *
  dsimp only
  rw [dropBytes_add h, dropBytes_append]

theorem At.unique {t : Tz} {i j : Text} (h : At t i) (h' : At t j) : i = j := by
  unfold At at h h'
  rw [h] at h'
  exact Option.some.inj h'

theorem input_at {t : Tz} {i : Text} (h : At t i) : input t = .ok i t := by
  unfold input; unfold At at h; rw [h]

theorem inputPos_at {t : Tz} : inputPos t = .ok t.st.srcPos t := rfl

theorem advanceBytes_at {t : Tz} {a b : Text} (h : At t (a ++ b)) :
    advanceBytes (byteLen a) t = .ok a (t.adv (byteLen a)) := by
  unfold advanceBytes
  rw [bind_ok (input_at h)]
  simp only [takeBytes_append]
  rfl

theorem advanceBytes_at' {t : Tz} {a b : Text} {n : Nat} (h : At t (a ++ b)) (hn : n = byteLen a) :
    advanceBytes n t = .ok a (t.adv n) := by
  subst hn; exact advanceBytes_at h

theorem advanceChars_at {t : Tz} {a b : Text} {n : Nat} (h : At t (a ++ b)) (hn : n = a.length) :
    advanceChars n t = .ok a (t.adv (byteLen a)) := by
  subst hn
  unfold advanceChars
  rw [bind_ok (input_at h)]
  simp only [List.take_left]
  exact advanceBytes_at h

theorem setPos_back {t : Tz} {n p : Nat} (h : p = t.st.srcPos) : setPos p (t.adv n) = .ok () t := by
  subst h; rfl

theorem setPos_here {t : Tz} {p : Nat} (h : p = t.st.srcPos) : setPos p t = .ok () t := by
  subst h; rfl

theorem subT_le {t : Tz} {a b : Nat} (h : b ≤ a) : subT a b t = .ok (a - b) t := by
  unfold subT; rw [if_pos h]; rfl

theorem codeLen_at {t : Tz} : codeLen t = .ok (byteLen t.code) t := rfl

theorem toNat_ofNat_valid {n : Nat} (h : n.isValidChar) : (Char.ofNat n).toNat = n := by
  unfold Char.ofNat
  rw [dif_pos h]
  rfl

/-- ASCII texts: characters are bytes. -/
def ascii (w : Text) : Bool := w.all fun c => c.toNat < 128

theorem utf8Size_ascii {c : Char} (h : c.toNat < 128) : c.utf8Size = 1 := by
  unfold Char.utf8Size
  have : c.val ≤ 0x7f := by
    rw [UInt32.le_iff_toNat_le]
    show c.toNat ≤ 127
    omega
  simp [this]

theorem byteLen_ascii {w : Text} (h : ascii w = true) : byteLen w = w.length := by
  induction w with
  | nil => rfl
  | cons c w ih =>
    simp only [ascii, List.all_cons, Bool.and_eq_true, decide_eq_true_eq] at h
    simp only [byteLen, List.length_cons]
    rw [ih (by simpa [ascii] using h.2), utf8Size_ascii h.1]
    omega

theorem byteLen_pos {i : Text} (h : i ≠ []) : 0 < byteLen i := by
  cases i with
  | nil => exact absurd rfl h
  | cons c i => simp only [byteLen]; have := Char.utf8Size_pos c; omega

theorem byteLen_cons_ascii (c : Char) (i : Text) (h : c.toNat < 128) : byteLen (c :: i) = 1 + byteLen i := by
  simp only [byteLen]; rw [utf8Size_ascii h]

theorem startsWith_append (p r : Text) : startsWith (p ++ r) p = true := by
  induction p with
  | nil => cases r <;> rfl
  | cons c p ih => simp [startsWith, ih]

theorem startsWith_split {i p : Text} (h : startsWith i p = true) : ∃ r, i = p ++ r := by
  induction p generalizing i with
  | nil => exact ⟨i, rfl⟩
  | cons c p ih =>
    cases i with
    | nil => cases h
    | cons d i =>
      simp only [startsWith, Bool.and_eq_true, beq_iff_eq] at h
      obtain ⟨rfl, h⟩ := h
      obtain ⟨r, rfl⟩ := ih h
      exact ⟨r, rfl⟩

theorem startsWith_head_ne {c d : Char} {i p : Text} (h : c ≠ d) : startsWith (c :: i) (d :: p) = false := by
  simp [startsWith, h]

/-! ### White space -/

def isBlank (c : Char) : Bool := c == ' ' || c == '\t' || c == '\r' || c == '\n'

/-- The state after the white space `w`. -/
def Tz.ws (t : Tz) (w : Text) : Tz := { t with st := wsGo w t.st }

theorem wsGo_append (w i : Text) (hw : w.all isBlank = true) (hi : (i.head?.map isBlank).getD false = false)
    (s : TState) : wsGo (w ++ i) s = wsGo w s := by
  induction w generalizing s with
  | nil =>
    cases i with
    | nil => rfl
    | cons c i =>
      simp only [List.head?_cons, Option.map_some, Option.getD_some, isBlank, Bool.or_eq_false_iff] at hi
      simp [wsGo, hi]
  | cons c w ih =>
    simp only [List.all_cons, Bool.and_eq_true] at hw
    simp only [List.cons_append, wsGo]
    split
    · exact ih hw.2 _
    · split
      · exact ih hw.2 _
      · rename_i h1 h2
        have h3 := hw.1
        simp only [isBlank, Bool.or_eq_true] at h1 h2 h3
        exact absurd h3 (fun h => h.elim h1 h2)

theorem wsGo_fields (w : Text) (hw : w.all isBlank = true) (s : TState) :
    (wsGo w s).srcPos = s.srcPos + byteLen w ∧ (wsGo w s).state = s.state ∧ (wsGo w s).stack = s.stack ∧
      (wsGo w s).restart = s.restart := by
  induction w generalizing s with
  | nil => simp [wsGo, byteLen]
  | cons c w ih =>
    simp only [List.all_cons, Bool.and_eq_true] at hw
    have hc : c.utf8Size = 1 := by
      have h3 := hw.1
      simp only [isBlank, Bool.or_eq_true, beq_iff_eq] at h3
      rcases h3 with ((rfl | rfl) | rfl) | rfl <;> rfl
    simp only [wsGo, byteLen, hc]
    split
    · obtain ⟨h1, h2, h3, h4⟩ := ih hw.2 { s with srcPos := s.srcPos + 1 }
      refine ⟨?_, h2, h3, h4⟩
      rw [h1]; dsimp only; omega
    · split
      · obtain ⟨h1, h2, h3, h4⟩ := ih hw.2 ({ s with srcPos := s.srcPos + 1 } : TState).nextLine
        refine ⟨?_, h2, h3, h4⟩
        rw [h1]; dsimp only [TState.nextLine]; omega
      · rename_i h1 h2
        have h3 := hw.1
        simp only [isBlank, Bool.or_eq_true] at h1 h2 h3
        exact absurd h3 (fun h => h.elim h1 h2)

theorem whitespace_at {t : Tz} {w i : Text} (h : At t (w ++ i)) (hw : w.all isBlank = true)
    (hi : (i.head?.map isBlank).getD false = false) : whitespace t = .ok () (t.ws w) := by
  unfold whitespace
  rw [bind_ok (input_at h)]
  show TR.ok () { t with st := wsGo (w ++ i) t.st } = _
  rw [wsGo_append w i hw hi]
  rfl

theorem At.ws {t : Tz} {w i : Text} (h : At t (w ++ i)) (hw : w.all isBlank = true) : At (t.ws w) i := by
  unfold At Tz.ws at *
  dsimp only
  rw [(wsGo_fields w hw t.st).1, dropBytes_add h, dropBytes_append]

@[simp] theorem Tz.ws_nil (t : Tz) : t.ws [] = t := rfl

/-! ### Position of a character -/

theorem position_append (p : Char → Bool) (a b : Text) (ha : ∀ c ∈ a, p c = false) :
    position p (a ++ b) = (position p b).map (· + a.length) := by
  induction a with
  | nil => cases h : position p b <;> simp [h]
  | cons c a ih =>
    have h1 := ha c (by simp)
    have h2 := ih (fun d hd => ha d (by simp [hd]))
    simp only [List.cons_append, position, h1, h2, List.length_cons]
    cases position p b <;> simp; omega

theorem position_hit (p : Char → Bool) (c : Char) (b : Text) (hc : p c = true) : position p (c :: b) = some 0 := by
  simp [position, hc]

/-- The first character satisfying `p` is behind `a`. -/
theorem position_getD (p : Char → Bool) (a b : Text) (ha : ∀ c ∈ a, p c = false)
    (hb : ∀ c, b.head? = some c → p c = true) (d : Nat) (hd : b = [] → d = a.length) :
    (position p (a ++ b)).getD d = a.length := by
  rw [position_append p a b ha]
  cases b with
  | nil => simp [position, hd]
  | cons c b => simp [position, hb c rfl]

end Pico
