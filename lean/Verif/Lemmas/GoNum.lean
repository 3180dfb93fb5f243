import Verif.Lemmas.GoTok
/-! # The scanners of numbers and documents do not fail where a piece stands -/
namespace Pico
open T

section
variable {t : Tz}

/-! ### Numbers -/

theorem bytesTok_noInt {bs : List Nat} {k : Token} (h : BytesTok bs k) (v : Nat) : Token.int v ≠ k := by
  cases h <;> nofun

theorem Scrap.bound {w r : Text} {v : Nat} (h : Scrap w [.int v] r) : v < 2 ^ 63 := by
  generalize hk : [Token.int v] = ks at h
  cases h with
  | word =>
    injection hk with hk
    unfold identifierToken at hk
    split at hk <;> cases hk
  | int _ hv => cases hk; exact hv
  | single p fs k hp h hb => injection hk with hk; exact absurd hk (bytesTok_noInt hb v)
  | doc p w ks hp h =>
    cases h with
    | here => cases hk
    | now b tag nl fs k hb ht hn h hb' => injection hk with hk; exact absurd hk (bytesTok_noInt hb' v)
  | _ => cases hk

theorem Stands.bound {i w r : Text} {v : Nat} (ha : Stands i) (e : i = w ++ r) (h : IntLit w v)
    (hm : ∀ l u, IntLit l u → l <+: w ++ r → l.length ≤ w.length)
    (hd : (∀ c ∈ w, c.isDigit = true) → ∀ c, r.head? = some c → c.isDigit = false ∧ c ≠ '.') : v < 2 ^ 63 := by
  obtain ⟨c, s, rfl, hc⟩ := h.first
  obtain ⟨w', ks, r', e', hs, hf⟩ := ha.form (by rintro q rfl; injection e with e _; subst e; cases hc)
  rw [show lead i = 2 by rw [e]; exact lead_digit hc] at hf
  have f' : Form (c :: s) [.int v] r 2 := .inl ⟨v, h, hm, hd, rfl⟩
  obtain ⟨rfl, rfl⟩ := f'.unique (fun _ => innerU) hf (e.symm.trans e')
  exact hs.bound

theorem go_prefixed {pre : Text} {radix : Nat} {p : Char → Bool} {i : Text} (hi : At t i) (hpre : byteLen pre = 2)
    (hv : ∀ ds r, i = pre ++ ds ++ r → ds ≠ [] → (∀ c ∈ ds, p c = true) → (∀ c, r.head? = some c → p c = false) →
      ∃ v, fromStrRadix i64Max radix ds = some v) : Go (prefixedNum pre radix p) t := by
  cases hs : startsWith i pre with
  | false => exact Safe.of_err (prefixedNum_none pre radix p hi hs) rfl
  | true =>
    obtain ⟨r, rfl⟩ := startsWith_split hs
    obtain ⟨a, b, rfl, ha, hb⟩ := span_at (fun c => !p c) r
    by_cases hae : a = []
    · subst hae
      unfold Go prefixedNum
      refine .bind (sf_input hi ?_)
      refine .ite (fun _ => rfl) fun h => ?_
      refine .bind (sf_advBytes hi hpre.symm fun hl => ?_)
      refine .bind (sf_input hl.mv.at' ?_)
      dsimp only
      refine .ite (fun _ => rfl) fun h0 => ?_
      exfalso
      rw [position_of_span ha hb] at h0
      split at h0
      · rename_i hbe
        subst hbe
        apply h
        rw [byteLen_append, hpre]
        rfl
      · exact h0 rfl
    · have hi' : At t (pre ++ a ++ b) := by rw [List.append_assoc]; exact hi
      have ha' : ∀ c ∈ a, p c = true := fun c hc => by simpa using ha c hc
      have hb' : ∀ c, b.head? = some c → p c = false := fun c hc => by simpa using hb c hc
      obtain ⟨v, hv⟩ := hv a b (by simp) hae ha' hb'
      exact Safe.of_ok (prefixedNum_int hi' hpre hae ha' hb' hv) trivial

theorem go_hnum {i : Text} (hi : At t i) (ha : Stands i) : Go hnum t := by
  refine go_prefixed hi rfl fun ds r e hne hd hr => ?_
  have hd' : ∀ c ∈ ds, c.isDigit = true ∨ c ∈ c!"abcdefABCDEF" := fun c hc => (isHexDigit_iff c).1 (hd c hc)
  refine ⟨_, fromStrRadix_value hne (fun c hc => ⟨(hexDigit_class (hd' c hc)).2.1, (hexDigit_class (hd' c hc)).2.2⟩) ?_⟩
  refine ha.bound e (.hex ds hne hd') (fun l u h hp => ?_) fun h => ?_
  · exact hex_longest (fun c hc h => by rw [← isHexDigit_iff, hr c hc] at h; cases h) h (by rw [List.append_assoc] at hp; exact hp)
  · cases h 'x' (by simp)

theorem go_bnum {i : Text} (hi : At t i) (ha : Stands i) : Go bnum t := by
  refine go_prefixed hi rfl fun ds r e hne hd hr => ?_
  have hd' : ∀ c ∈ ds, c = '0' ∨ c = '1' := fun c hc => by simpa using hd c hc
  refine ⟨_, fromStrRadix_value hne (fun c hc => by rcases hd' c hc with rfl | rfl <;> decide) ?_⟩
  refine ha.bound e (.bin ds hne hd') (fun l u h hp => ?_) fun h => ?_
  · refine bin_longest (fun c hc h => ?_) h (by rw [List.append_assoc] at hp; exact hp)
    have := hr c hc
    rcases h with rfl | rfl <;> cases this
  · cases h 'b' (by simp)

theorem go_onum {i : Text} (hi : At t i) (hne : i ≠ []) (ha : Stands i) (hdot : i ≠ c!".") (hx : ∀ c q, i ≠ c!"0x" ++ c :: q)
    (hb : ∀ c q, i ≠ c!"0b" ++ c :: q) : GoG (∀ d q, i = d :: q → d.isDigit = false) onumDnumLnum t := by
  obtain ⟨ds, r, rfl, hds, hr⟩ := span_at notDigit i
  have hdig : ∀ c ∈ ds, c.isDigit = true := fun c hc => notDigit_false (hds c hc)
  have hnd : ∀ c, r.head? = some c → c.isDigit = false := fun c hc => notDigit_true (hr c hc)
  by_cases hd : ∃ q, r = '.' :: q
  · obtain ⟨q, rfl⟩ := hd
    obtain ⟨fs, r3, rfl, hfs, hr3⟩ := span_at notDigit q
    by_cases he : ds ≠ [] ∨ fs ≠ []
    · obtain ⟨sp, h⟩ := onum_double hi hds hfs hr3 he
      exact Safe.of_ok h trivial
    · simp only [not_or, ne_eq, Decidable.not_not] at he
      obtain ⟨rfl, rfl⟩ := he
      cases r3 with
      | nil => exact absurd rfl hdot
      | cons c r3 => exact Safe.of_err (onum_dot hi (hr3 c rfl)) ⟨rfl, fun d q e => by cases e; rfl⟩
  · have hd : ∀ c, r.head? = some c → c ≠ '.' := by
      rintro c hc rfl
      obtain ⟨q, hq⟩ := head_split hc
      exact hd ⟨q, hq⟩
    by_cases he : ds = []
    · subst he
      refine Safe.of_err (onum_none hi hne hr ?_) ⟨rfl, fun d q e => hnd d (by rw [show r = d :: q from e]; rfl)⟩
      cases r with
      | nil => rfl
      | cons c r => simp [startsWith, hd c rfl]
    · obtain ⟨w, ks, r', e, hs, hf⟩ := ha.form (by
        intro q e
        cases ds with
        | nil => exact he rfl
        | cons d ds =>
          injection e with e _
          have := hdig d (by simp)
          rw [e] at this
          cases this)
      have hl : lead (ds ++ r) = 2 := by
        cases ds with
        | nil => exact absurd rfl he
        | cons d ds => exact lead_digit (hdig d (by simp))
      rw [hl] at hf
      have hdd : ∀ c, r.head? = some c → ¬ c.isDigit = true := fun c hc h => by rw [hnd c hc] at h; cases h
      have key : ∃ v, IntLit ds v ∧ v < 2 ^ 63 := by
        rcases hf with ⟨v, h1, h2, h3, rfl⟩ | ⟨es, fs, rfl, h1, h2, rfl⟩
        · have hv := hs.bound
          rcases intLit_forms h1 with h | ⟨es, rfl, hes, _⟩ | ⟨es, rfl, hes, _⟩
          · obtain ⟨rfl, rfl⟩ := run_unique (p := fun c => c.isDigit = true) hdig h hdd
              (fun c hc hx => by rw [(h3 h c hc).1] at hx; cases hx) e
            exact ⟨v, h1, hv⟩
          · cases es with
            | nil => exact absurd rfl hes
            | cons c es => exact absurd e (by simpa using hx c (es ++ r'))
          · cases es with
            | nil => exact absurd rfl hes
            | cons c es => exact absurd e (by simpa using hb c (es ++ r'))
        · have e : ds ++ r = es ++ ('.' :: (fs ++ r')) := by simpa using e
          obtain ⟨_, e2⟩ := run_unique (p := fun c => c.isDigit = true) hdig (fun c hc => h1 c (by simp [hc])) hdd
            (fun c hc hx => by cases hc; cases hx) e
          exact absurd rfl (hd '.' (by rw [e2]; rfl))
      obtain ⟨v, h1, hv⟩ := key
      have hr' : ∀ c, r.head? = some c → notDigit c = true ∧ c ≠ '.' := fun c hc => ⟨hr c hc, hd c hc⟩
      have hval : (if startsWith ds c!"0" && ds.length > 1 then fromStrRadix i64Max 8 (ds.drop 1) else fromStrRadix i64Max 10 ds) = some v := by
        cases h1 with
        | dec _ _ _ hz =>
          have hcond : (startsWith ds c!"0" && decide (ds.length > 1)) = false := by
            cases ds with
            | nil => exact absurd rfl he
            | cons c ds =>
              by_cases hc : c = '0'
              · subst hc
                rw [hz rfl]
                rfl
              · simp [startsWith, hc]
          rw [hcond]
          exact fromStrRadix_value he (fun c hc => ⟨by simp [hdig c hc], isDigit_value (hdig c hc)⟩) hv
        | oct es hes ho =>
          have hdig : ∀ c, isOctDigit c = true → c.isDigit = true ∧ digitValue c < 8 := by
            intro c hc
            unfold isOctDigit at hc
            simp only [Bool.or_eq_true, beq_iff_eq] at hc
            rcases hc with ((((((rfl | rfl) | rfl) | rfl) | rfl) | rfl) | rfl) | rfl <;> decide
          have hcond : (startsWith (c!"0" ++ es) c!"0" && decide ((c!"0" ++ es).length > 1)) = true := by
            have := List.length_pos_iff.2 hes
            simp [startsWith]
            omega
          rw [hcond]
          exact fromStrRadix_value hes (fun x hx => ⟨by simp [(hdig x (ho x hx)).1], (hdig x (ho x hx)).2⟩) hv
        | hex es hes _ => cases hdig 'x' (by simp)
        | bin es hes _ => cases hdig 'b' (by simp)
      exact Safe.of_ok (onum_int hi he hds hr' hval) trivial

end
end Pico
