import Verif.Deadwood.CompareProps
/-!
# Bailiwick

Theorems about `dwc_in_bailiwick`.
-/

namespace Dw
namespace DwStr
open Spec

/-- The name in a name at which the search stopped. -/
def Found.isYes : Found → Bool
  | .no => false
  | _ => true

theorem below_cons (a : List UInt8) (as b : List (List UInt8)) :
    Below (a :: as) b ↔ SameName b (a :: as) ∨ Below as b := by
  simp only [Below, SameName, List.map_cons]
  rw [List.suffix_cons_iff]

theorem oneHop_pick {c : DwStr} {q : Option DwStr} {b : Bool} {i : Nat} {cs : List (List UInt8)}
    (hb : b = true → q ≠ none) (h : OneHop c.mem (qmem q) c.len (qlen q) b i cs) :
    OneHop (pick c q b).mem (qmem q) (pick c q b).len (qlen q) false i cs := by
  cases b with
  | false => exact h
  | true =>
    obtain ⟨z, rfl⟩ : ∃ z, q = some z := by cases q; exact absurd rfl (hb rfl); exact ⟨_, rfl⟩
    have : PlainAt z.mem i cs := by
      generalize hbb : true = b at h
      induction h with
      | root h => subst hbb; exact .root h
      | label h _ ih => subst hbb; exact .label h (ih rfl)
      | pointer => cases hbb
    exact PlainAt.oneHop (b := false) (p := z.mem) this

theorem bailiwickLoop_exact {b h : DwStr} (hb : Usable b) (hh : Usable h) {q : Option DwStr}
    (hq : ∀ x, q = some x → Usable x) {bo : Nat} {bs : List (List UInt8)} (hbs : bs.length < 300)
    (hP : PlainAt b.mem bo bs) :
    ∀ (n : Nat) {place : Nat} {inQ : Bool} {hs : List (List UInt8)}, hs.length < n →
    (inQ = true → q ≠ none) → OneHop h.mem (qmem q) h.len (qlen q) inQ place hs →
    ∃ f, bailiwickLoop b bo h q n place inQ = .ok f ∧ (f.isYes = true ↔ Below hs bs) := by
  intro n
  induction n with
  | zero => intro place inQ hs h; omega
  | succ n ih =>
    intro place inQ hs hn hiq hO
    obtain ⟨b₁, i₁, hf, hb₁, hL, hT⟩ := OneHop.first hh hiq hO
    have hO₁ : OneHop h.mem (qmem q) h.len (qlen q) b₁ i₁ hs := by
      cases hs with
      | nil => exact .root hL.len
      | cons x xs => exact .label ⟨OneHop.hd_pos hO (by simp), hL.le, hL.len, hL.bytes⟩ (hT (by simp))
    rw [bailiwickLoop, hf, Res.ok_bind]
    simp only
    have hs' := pick_usable hh hq b₁
    rw [dnameSame_exact hb hs' hq hbs hP (oneHop_pick hb₁ hO₁)]
    simp only [DwStr.isYes, Res.ok_bind]
    by_cases hsn : SameName bs hs
    · simp only [decide_eq_true hsn, if_true]
      refine ⟨_, rfl, ?_⟩
      have : Below hs bs := by
        simp only [Below]; rw [show bs.map (·.map lower) = hs.map (·.map lower) from hsn]; exact List.suffix_refl _
      cases b₁ <;> simp [Found.isYes, this]
    · simp only [decide_eq_false hsn, Bool.false_eq_true, if_false]
      rw [pick_mem h hb₁] at hL
      have hfit := hL.fit hs'
      rw [mem_peek hL.len, Res.ok_bind, ofNat_len hL.le, if_neg (by omega)]
      cases hs with
      | nil =>
        refine ⟨.no, by simp [hd], ?_⟩
        simp only [Found.isYes, Bool.false_eq_true, false_iff]
        intro g
        apply hsn
        have := List.suffix_nil.1 g
        simpa [SameName] using this
      | cons x xs =>
        have hpos := OneHop.hd_pos hO (by simp)
        have hne : ¬ UInt8.ofNat (hd (x :: xs)).length = 0 := by
          intro h
          have := ofNat_len hL.le
          rw [h] at this
          simp at this; omega
        rw [if_neg hne]
        obtain ⟨f, e, hf⟩ := ih (by simpa using hn) hb₁ (hT (by simp))
        exact ⟨f, e, by rw [hf, below_cons]; simp [hsn]⟩

/-- **C30 (bailiwick).** A host name (which may be compressed as long as no pointer
leads directly to a pointer) is found in the bailiwick exactly when it is the
bailiwick name or a name below it, ignoring ASCII case. -/
theorem inBailiwick_exact {b h : DwStr} (hb : Usable b) (hh : Usable h) {q : Option DwStr}
    (hq : ∀ x, q = some x → Usable x) {bo ho : Nat} {bs hs : List (List UInt8)} (hbs : bs.length < 300)
    (hhs : hs.length < 300) (hP : PlainAt b.mem bo bs)
    (hO : OneHop h.mem (qmem q) h.len (qlen q) false ho hs) :
    ∃ f, inBailiwick b bo h ho q = .ok f ∧ (f.isYes = true ↔ Below hs bs) := by
  have h1 := PlainAt.lt hb hP
  have h2 : ho < h.len := by
    cases hO with
    | root g => exact mem_lt hh g
    | label g => exact mem_lt hh g.len
    | pointer g => exact mem_lt hh g
  rw [inBailiwick]
  simp only [hb.sane, hh.sane, Bool.not_true, Bool.or_self,
    decide_eq_false (show ¬ bo > b.len by omega), decide_eq_false (show ¬ ho > h.len by omega),
    Bool.false_eq_true, if_false]
  exact bailiwickLoop_exact hb hh hq hbs hP 300 hhs (by simp) hO

/-- **C30 (plain names).** For two plain names, which is how bailiwicks are checked. -/
theorem inBailiwick_plain {b h : DwStr} (hb : Usable b) (hh : Usable h) {bo ho : Nat}
    {bs hs : List (List UInt8)} (hbs : bs.length < 300) (hhs : hs.length < 300)
    (hP : PlainAt b.mem bo bs) (hO : PlainAt h.mem ho hs) :
    ∃ f, inBailiwick b bo h ho none = .ok f ∧ (f.isYes = true ↔ Below hs bs) :=
  inBailiwick_exact hb hh (by simp) hbs hhs hP (PlainAt.oneHop (b := false) (p := h.mem) hO)

theorem bailiwickLoop_safe {b h : DwStr} (hb : Usable b) (hh : Usable h) {q : Option DwStr}
    (hq : ∀ x, q = some x → Usable x) (bo : Nat) (hmax : 9 ≤ h.max) :
    ∀ (n place : Nat) (inQ : Bool), (inQ = true → q ≠ none) → (inQ = true → place ≤ (pick h q inQ).len) →
    bailiwickLoop b bo h q n place inQ = .err ∨ ∃ f, bailiwickLoop b bo h q n place inQ = .ok f := by
  intro n
  induction n with
  | zero => intro place inQ _ _; exact Or.inl rfl
  | succ n ih =>
    intro place inQ h1 h2
    rw [bailiwickLoop]
    rcases follow_safe hh hq place inQ h1 h2 with e | ⟨p', b', e, hb', hp⟩
    · rw [e]; exact Or.inl rfl
    · rw [e, Res.ok_bind]
      simp only
      have hs := pick_usable hh hq b'
      have hyes : ∃ r, isYes (dnameSame b bo (pick h q b') p' q) = .ok r := by
        rcases dnameSame_total hb hs hq bo p' with e | ⟨r, e⟩ <;> rw [e]
        exacts [⟨_, rfl⟩, ⟨_, rfl⟩]
      obtain ⟨r, hr⟩ := hyes
      rw [hr, Res.ok_bind]
      cases r with
      | true => exact Or.inr ⟨_, rfl⟩
      | false =>
        simp only [Bool.false_eq_true, if_false]
        have hpk : ∃ x, (pick h q b').peek p' = .ok x := by
          rcases hp with hp | ⟨rfl, hp⟩
          · exact peek_block hs (by omega)
          · have := hh.wf
            unfold WF at this
            exact ⟨_, peek_ok (by simp only [pick, Bool.false_eq_true, if_false]; omega)⟩
        obtain ⟨x, hx⟩ := hpk
        rw [hx, Res.ok_bind]
        by_cases h5 : x.toNat + p' + 1 > (pick h q b').len
        · rw [if_pos h5]; exact Or.inl rfl
        · rw [if_neg h5]
          by_cases h6 : x = 0
          · rw [if_pos h6]; exact Or.inr ⟨_, rfl⟩
          · rw [if_neg h6]
            exact ih _ b' hb' (fun _ => by omega)

/-- **C30 (any strings).** The search ends and has no undefined behaviour for any
strings, if the host name is in a block made for at least 9 bytes. -/
theorem inBailiwick_total {b h : DwStr} (hb : Usable b) (hh : Usable h) {q : Option DwStr}
    (hq : ∀ x, q = some x → Usable x) (bo ho : Nat) (hmax : 9 ≤ h.max) :
    inBailiwick b bo h ho q = .err ∨ ∃ f, inBailiwick b bo h ho q = .ok f := by
  rw [inBailiwick]
  split
  · exact Or.inl rfl
  · exact bailiwickLoop_safe hb hh hq bo hmax 300 ho false (by simp) (by simp)

/-- **Finding.** In a smaller block a pointer into the header reads outside the block. -/
theorem inBailiwick_can_read_outside :
    inBailiwick (ofBytes (encName [[97]])) 0 (ofBytes [0xc0, 0]) 0 (some exQ) = .ub := by
  decide +kernel

/-! ## Examples -/

example : inBailiwick (ofBytes (encName [[65]])) 0 exWww 0 (some exQ) = .ok (.question 0) := by
  decide +kernel

example : inBailiwick (ofBytes (encName [[98]])) 0 exWww 0 (some exQ) = .ok .no := by
  decide +kernel

/-- A name that only ends with the same letters is not below the bailiwick. -/
example : inBailiwick (ofBytes (encName [[97]])) 0 (ofBytes (encName [[98, 97]])) 0 none = .ok .no := by
  decide +kernel

end DwStr
end Dw
