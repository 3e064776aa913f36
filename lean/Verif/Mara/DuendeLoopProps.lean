import Verif.Mara.DuendeLoopModel
/-!
# C129: duende leaves no process behind
-/

namespace Mara
namespace Duende

/-- Every process started has ended, or was told to, or is looked after. -/
def Kept (s : St) : Prop :=
  ∀ p < s.started, p ∈ s.ended ∨ p ∈ s.termed ∨ (s.exit = none ∧ (p = s.pid ∨ p = s.logPid))

theorem kept_handle {s : St} (h : Kept s) (he : s.exit = none) {status alive exited : Nat} (hx : exited ∈ s.ended)
    (hp : ∀ p, p = s.pid ∨ p = s.logPid → p = alive ∨ p = exited) : Kept (handle s status alive exited) := by
  have old : ∀ p < s.started, p ∈ s.ended ∨ p ∈ alive :: s.termed := by
    intro p hlt
    rcases h p hlt with a | a | a
    · exact .inl a
    · exact .inr (List.mem_cons_of_mem _ a)
    · rcases hp p a.2 with b | b
      · exact .inr (by simp [b])
      · exact .inl (b ▸ hx)
  unfold handle
  split
  · split
    · intro p hlt
      rcases old p hlt with a | a
      · exact .inl a
      · refine .inr (.inl ?_)
        simp only [List.mem_cons] at a ⊢
        rcases a with a | a
        · exact .inl a
        · exact .inr (.inr a)
    · intro p hlt
      rcases old p hlt with a | a
      · exact .inl a
      · exact .inr (.inl a)
  · intro p hlt
    have hlt' : p < s.started + 2 := hlt
    by_cases hs : p < s.started
    · rcases old p hs with a | a
      · exact .inl a
      · exact .inr (.inl a)
    · refine .inr (.inr ⟨he, ?_⟩)
      show p = s.started ∨ p = s.started + 1
      omega

theorem kept_reap {s : St} (h : Kept s) (he : s.exit = none) (w : Option (Nat × Nat)) : Kept (reap s w) := by
  cases w with
  | none => exact h
  | some w =>
    obtain ⟨w, status⟩ := w
    have h' : Kept { s with ended := w :: s.ended } := fun p hp => by
      rcases h p hp with a | a
      · exact .inl (List.mem_cons_of_mem _ a)
      · exact .inr a
    simp only [reap]
    split
    · rename_i hw
      exact kept_handle h' he (by simp [hw]) (fun p hp => hp.symm)
    · split
      · rename_i hw
        exact kept_handle h' he (by simp [hw]) (fun p hp => hp)
      · exact h'

theorem kept_round {s : St} (h : Kept s) (r : Round) : Kept (round s r) := by
  unfold round
  split
  · exact h
  · rename_i hx
    have he : s.exit = none := by simpa using hx
    have hf : Kept (flags s r) := h
    simp only
    split
    · exact kept_reap (s := { flags s r with huped := _, hup := false }) hf he _
    · split
      · intro p hp
        rcases hf p hp with a | a | a
        · exact .inl a
        · exact .inr (.inl (List.mem_cons_of_mem _ (List.mem_cons_of_mem _ a)))
        · refine .inr (.inl ?_)
          rcases a.2 with b | b <;> simp [b]
      · exact kept_reap hf he _

theorem kept_foldl (rs : List Round) {s : St} (h : Kept s) : Kept (rs.foldl round s) := by
  induction rs generalizing s with
  | nil => exact h
  | cons r rs ih => exact ih (kept_round h r)

theorem kept_begin : Kept begin := by
  intro p hp
  have hp' : p < 0 + 2 := hp
  refine .inr (.inr ⟨rfl, ?_⟩)
  show p = 0 ∨ p = 0 + 1
  omega

/-- **C129.** Whatever signals come and whichever processes end: once duende has ended, every process it started has
ended or was sent TERM. -/
theorem no_orphans (rs : List Round) {c : Nat} (h : (rounds rs).exit = some c) :
    ∀ p < (rounds rs).started, p ∈ (rounds rs).ended ∨ p ∈ (rounds rs).termed := by
  intro p hp
  rcases kept_foldl rs kept_begin p hp with a | a | a
  · exact .inl a
  · exact .inr a
  · have : (rounds rs).exit = none := a.1
    rw [h] at this
    exact absurd this (by simp)

/-- **C129.** And while it runs, at most the two it looks after have neither ended nor been sent TERM. -/
theorem at_most_two (rs : List Round) : ∀ p < (rounds rs).started, p ∉ (rounds rs).ended → p ∉ (rounds rs).termed →
    p = (rounds rs).pid ∨ p = (rounds rs).logPid := by
  intro p hp h1 h2
  rcases kept_foldl rs kept_begin p hp with a | a | a
  · exact absurd a h1
  · exact absurd a h2
  · exact a.2

theorem rounds_snoc (rs : List Round) (r : Round) : rounds (rs ++ [r]) = round (rounds rs) r := by
  simp [rounds]

/-- **C129.** A HUP for duende is passed on in the same round to the daemon that runs then. -/
theorem hup_passed (rs : List Round) (r : Round) (h : r.hup = true) (he : (rounds rs).exit = none) :
    (rounds rs).pid ∈ (rounds (rs ++ [r])).huped := by
  have reap_huped : ∀ (s : St) (w : Option (Nat × Nat)), (reap s w).huped = s.huped := by
    intro s w
    have hh : ∀ (s : St) (a b c : Nat), (handle s a b c).huped = s.huped := by
      intro s a b c
      unfold handle
      split
      · split <;> rfl
      · rfl
    cases w with
    | none => rfl
    | some w =>
      simp only [reap]
      split
      · rw [hh]
      · split
        · rw [hh]
        · rfl
  rw [rounds_snoc, round, if_neg (by simp [he])]
  simp only [flags, h, Bool.or_true, if_true]
  rw [reap_huped]
  simp

theorem reap_term (s : St) (w : Option (Nat × Nat)) : (reap s w).term = s.term ∧ (reap s w).hup = s.hup := by
  have hh : ∀ (s : St) (a b c : Nat), (handle s a b c).term = s.term ∧ (handle s a b c).hup = s.hup := by
    intro s a b c
    unfold handle
    split
    · split <;> exact ⟨rfl, rfl⟩
    · exact ⟨rfl, rfl⟩
  cases w with
  | none => exact ⟨rfl, rfl⟩
  | some w =>
    simp only [reap]
    split
    · exact hh _ _ _ _
    · split
      · exact hh _ _ _ _
      · exact ⟨rfl, rfl⟩

/-- While duende runs, no HUP is waiting between rounds. -/
theorem hup_done (rs : List Round) : (rounds rs).exit = none → (rounds rs).hup = false := by
  have step : ∀ (s : St) (r : Round), (s.exit = none → s.hup = false) → (round s r).exit = none → (round s r).hup = false := by
    intro s r h he
    unfold round at he ⊢
    split
    · rename_i hx
      rw [if_pos hx] at he
      exact h he
    · rename_i hx
      simp only
      split
      · exact (reap_term _ _).2
      · rename_i hf
        split
        · simpa using hf
        · rw [(reap_term _ _).2]; simpa using hf
  have all : ∀ (rs : List Round) (s : St), (s.exit = none → s.hup = false) →
      (rs.foldl round s).exit = none → (rs.foldl round s).hup = false := by
    intro rs
    induction rs with
    | nil => intro s h; exact h
    | cons r rs ih => intro s h; exact ih _ (step s r h)
  exact all rs begin (fun _ => rfl)

/-- **C129.** A TERM for duende ends it in the first round in which no HUP comes, with the code 0 if nothing ended it
before; the daemon and the logger that run then are sent TERM (`no_orphans`). -/
theorem term_ends (rs : List Round) (r : Round) (hr : r.hup = false) (ht : r.term = true ∨ (rounds rs).term = true)
    (he : (rounds rs).exit = none) : (rounds (rs ++ [r])).exit = some 0 := by
  have hh := hup_done rs he
  rw [rounds_snoc, round, if_neg (by simp [he])]
  have h2 : ((rounds rs).term || r.term) = true := by rcases ht with h | h <;> simp [h]
  simp only [flags, hr, hh, Bool.or_self, Bool.false_eq_true, if_false, h2, if_true]

/-- **C129.** A TERM that comes along with a HUP is not forgotten. -/
theorem term_kept (rs : List Round) (r : Round) (ht : r.term = true) (he : (rounds rs).exit = none) :
    (rounds (rs ++ [r])).term = true := by
  rw [rounds_snoc, round, if_neg (by simp [he])]
  simp only [flags, ht, Bool.or_true, if_true]
  split
  · rw [(reap_term _ _).1]
  · rfl

/-! ### Example -/

/-- The daemon ends by HUP and is started again, the logger that was stopped ends, then HUP and TERM come together, and in
the round after duende ends. -/
def story : List Round :=
  [⟨false, false, some (0, 1)⟩, ⟨false, false, some (1, 15)⟩, ⟨true, true, none⟩, ⟨false, false, none⟩]

example : (rounds story).exit = some 0 ∧ (rounds story).started = 4 ∧ (rounds story).ended = [1, 0] ∧
    (rounds story).termed = [2, 3, 1] ∧ (rounds story).huped = [2] := by decide

end Duende
end Mara
