import Verif.Deadwood.InflightProps
/-!
# C48: the clients of a request fit in the space set aside for them
-/

namespace Dw
namespace Infl

/-- No request has more than `k` clients. -/
def Cap (k : Nat) (t : Table) : Prop := ∀ (i : Nat) (s : Slot), t.slots[i]? = some s → s.clients.length ≤ k

theorem cap_set {k b : Nat} {t : Table} {s : Slot} (h : Cap k t) (hs : s.clients.length ≤ k) :
    Cap k (setSlot t b s) := by
  intro i x hx
  change (t.slots.set b s)[i]? = some x at hx
  rw [get_set] at hx
  rcases hx with ⟨_, _, rfl⟩ | ⟨_, hx⟩
  · exact hs
  · exact h i x hx

theorem cap_reset {k : Nat} {cfg : Cfg} {b : Nat} {t : Table} (h : Cap k t) : Cap k (reset cfg t b) := by
  intro i x hx
  rw [reset_slots, get_set] at hx
  rcases hx with ⟨_, _, rfl⟩ | ⟨_, hx⟩
  · exact Nat.zero_le _
  · exact h i x hx

theorem cap_connect {k : Nat} {cfg : Cfg} {now : Nat} :
    ∀ (net : Net) (b : Nat) (t : Table), Cap k t → Cap k (connect cfg now net b t)
  | .fail, _, _, h => h
  | .stop, _, _, h => h
  | .ok, b, t, h => by
    unfold connect
    cases hs : t.slots[b]? with
    | none => exact h
    | some s => exact cap_set h (h b s hs)
  | .refer name net, b, t, h => by
    unfold connect
    cases hf : findFree t with
    | none => exact h
    | some c =>
      simp only
      have h1 := cap_connect (now := now) (cfg := cfg) net c _
        (cap_set (b := c) (s := { Slot.empty cfg with query := some name, loc := true }) (cap_reset (cfg := cfg) (b := c) h)
          (Nat.zero_le _))
      generalize connect cfg now net c _ = t1 at h1 ⊢
      have tail : ∀ t2 : Table, Cap k t2 → Cap k (match t2.slots[c]? with
          | none => t2
          | some s => if s.sock then setSlot t2 c { s with die := now + cfg.limit } else reset cfg t2 c) := by
        intro t2 h2
        cases hs : t2.slots[c]? with
        | none => exact h2
        | some s =>
          simp only
          split
          · exact cap_set h2 (h2 c s hs)
          · exact cap_reset h2
      apply tail
      cases hs : t1.slots[b]? with
      | none => exact h1
      | some s => exact cap_set h1 (h1 b s hs)

theorem cap_join {k : Nat} {cfg : Cfg} {now b : Nat} {q : List UInt8} {t : Table} (h : Cap k t)
    (hb : ∀ s, t.slots[b]? = some s → s.clients.length + 1 ≤ k) : Cap k (join cfg now t b q) := by
  unfold join
  cases hs : t.slots[b]? with
  | none => exact h
  | some s =>
    refine cap_set h ?_
    have := hb s hs
    simpa using this

theorem cap_step {cfg : Cfg} (hlim : 0 < cfg.limit) {t : Table} (h : Cap (max 1 (numAlloc cfg - 2)) t) (e : Ev) :
    Cap (max 1 (numAlloc cfg - 2)) (step cfg t e) := by
  cases e with
  | lapse q => exact h
  | done b =>
    simp only [step]
    cases t.slots[b]? with
    | none => exact h
    | some s =>
      simp only
      split
      · exact cap_reset h
      · exact h
  | next now b net =>
    simp only [step]
    cases t.slots[b]? with
    | none => exact h
    | some s =>
      simp only
      split
      · exact cap_connect _ _ _ h
      · exact h
  | expire now b net =>
    simp only [step, expire]
    cases hs : t.slots[b]? with
    | none => exact h
    | some s =>
      simp only
      split
      · split
        · have h1 : Cap _ (connect cfg now net b (setSlot t b { s with retries := s.retries - 1, sock := false })) :=
            cap_connect _ _ _ (cap_set h (h b s hs))
          generalize connect cfg now net b _ = t1 at h1 ⊢
          cases hs1 : t1.slots[b]? with
          | none => exact h1
          | some s1 => exact cap_set h1 (h1 b s1 hs1)
        · exact cap_reset h
      · exact h
  | arrive now q net =>
    simp only [step, arrive]
    cases hfi : findInflight cfg t q with
    | mk ob t0 =>
      obtain ⟨hsl, hsome⟩ := findInflight_spec hfi
      have h0 : Cap (max 1 (numAlloc cfg - 2)) t0 := by intro i s hs; rw [hsl] at hs; exact h i s hs
      cases ob with
      | some b =>
        simp only
        cases hs : t0.slots[b]? with
        | none => exact h0
        | some s =>
          simp only
          split
          · exact h0
          · refine cap_join h0 fun s' hs' => ?_
            rw [hs] at hs'; cases hs'
            omega
      | none =>
        simp only
        cases hf : findFree t0 with
        | none => exact h0
        | some b =>
          obtain ⟨y, hy, hyf⟩ := findFree_some hf
          simp only
          obtain ⟨t1, ht1⟩ : ∃ t1, t1 = setSlot (reset cfg t0 b) b
              { Slot.empty cfg with query := some q, loc := true } := ⟨_, rfl⟩
          rw [← ht1]
          have hb1 : t1.slots[b]? = some { Slot.empty cfg with query := some q, loc := true } := by
            rw [ht1]
            show ((reset cfg t0 b).slots.set b _)[b]? = _
            rw [reset_slots, List.set_set]
            exact get_set_self hy
          have c1 : Cap (max 1 (numAlloc cfg - 2)) t1 := by
            rw [ht1]; exact cap_set (cap_reset h0) (Nat.zero_le _)
          have c2 := cap_connect (cfg := cfg) (now := now) net b t1 c1
          obtain ⟨hcon, _, _⟩ := connect_spec cfg now hlim net b t1 _ hb1 rfl
          obtain ⟨s', hs', _, h2, _⟩ := hcon.here
          cases net with
          | ok =>
            simp only
            refine cap_join ?_ ?_
            · intro i s hs; rw [enlist_slots] at hs; exact c2 i s hs
            · intro s hs
              rw [enlist_slots, hs'] at hs; cases hs
              rw [h2]
              simp [Slot.empty]
              omega
          | fail => exact cap_reset c2
          | stop => exact c2
          | refer name n => exact c2

/-- **C48.** Whatever happens, a request never has more clients than there is space set aside
for: one, or one less than the configured number, if that is more.  (The array has one place
more than the configured number, which is taken to be between 1 and 32000.) -/
theorem clients_fit (cfg : Cfg) (hlim : 0 < cfg.limit) (n : Nat) (es : List Ev) (i : Nat) (s : Slot)
    (hs : (run cfg (start cfg n) es).slots[i]? = some s) :
    s.clients.length ≤ max 1 (min cfg.maxInfl 32000 - 1) := by
  have key : ∀ (es : List Ev) (t : Table), Cap (max 1 (numAlloc cfg - 2)) t →
      Cap (max 1 (numAlloc cfg - 2)) (run cfg t es) := by
    intro es
    induction es with
    | nil => exact fun _ h => h
    | cons e es ih => exact fun t h => ih _ (cap_step hlim h e)
  have h0 : Cap (max 1 (numAlloc cfg - 2)) (start cfg n) := by
    intro i s hs
    have : s = Slot.empty cfg := by
      have := List.mem_of_getElem? hs
      exact (List.mem_replicate.1 this).2
    rw [this]; exact Nat.zero_le _
  refine Nat.le_trans (key es _ h0 i s hs) ?_
  unfold numAlloc
  split
  · omega
  · split <;> omega

/-- Two clients with the same question wait for one answer; with room for three, a third is not
taken on. -/
example : ((run ⟨2, 3, 256⟩ (start ⟨2, 3, 256⟩ 4)
    [.arrive 1 [1, 97, 0, 0, 1] .ok, .arrive 1 [1, 97, 0, 0, 1] .ok, .arrive 1 [1, 97, 0, 0, 1] .ok]).slots[0]?.map
      (·.clients.length)) = some 2 := by decide +kernel

end Infl
end Dw
