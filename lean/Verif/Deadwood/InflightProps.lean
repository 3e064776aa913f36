import Verif.Deadwood.InflightModel
/-!
# C48: pending requests
-/

namespace Dw
namespace Infl

/-- What holds of a place at all times: it is empty, or its clients asked its question; and
with `strict` it also has a time at which it is given up. -/
def Ok (strict : Bool) (s : Slot) : Prop :=
  (s.sock = false ∧ s.loc = false ∧ s.die = 0 ∧ s.clients = []) ∨
  (s.loc = true ∧ (strict = true → 0 < s.die) ∧ ∀ c ∈ s.clients, s.query = some c)

theorem Ok.of_free {strict : Bool} {s : Slot} (h : Ok strict s) (hf : s.free = true) :
    s.sock = false ∧ s.loc = false ∧ s.die = 0 ∧ s.clients = [] := by
  rcases h with h | ⟨h, _⟩
  · exact h
  · simp [Slot.free, h] at hf

theorem ok_empty (strict : Bool) (cfg : Cfg) : Ok strict (Slot.empty cfg) := Or.inl ⟨rfl, rfl, rfl, rfl⟩

/-- All places are in order. -/
def Good (strict : Bool) (t : Table) : Prop := ∀ (i : Nat) (s : Slot), t.slots[i]? = some s → Ok strict s

theorem unlist_slots (t : Table) (q : List UInt8) : (unlist t q).slots = t.slots := rfl

theorem reset_slots (cfg : Cfg) (t : Table) (b : Nat) :
    (reset cfg t b).slots = t.slots.set b (Slot.empty cfg) := by
  unfold reset
  cases h : t.slots[b]? with
  | none => simp only; rw [List.set_eq_of_length_le (by simpa using h)]
  | some s =>
    simp only
    cases s.query with
    | none => rfl
    | some q => simp only; split <;> rfl

theorem get_set {l : List Slot} {i j : Nat} {s x : Slot} :
    (l.set i s)[j]? = some x ↔ (i = j ∧ j < l.length ∧ x = s) ∨ (i ≠ j ∧ l[j]? = some x) := by
  rw [List.getElem?_set]
  by_cases h : i = j
  · subst h
    by_cases hl : i < l.length
    · simp [hl, eq_comm]
    · simp [hl]
  · simp [h]

theorem get_set_self {l : List Slot} {i : Nat} {s x : Slot} (h : l[i]? = some x) :
    (l.set i s)[i]? = some s := by
  rw [get_set]
  left
  refine ⟨rfl, ?_, rfl⟩
  rcases Nat.lt_or_ge i l.length with h' | h'
  · exact h'
  · rw [List.getElem?_eq_none h'] at h; simp at h

theorem findFree_some {t : Table} {c : Nat} (h : findFree t = some c) :
    ∃ s, t.slots[c]? = some s ∧ s.free = true := by
  unfold findFree at h
  rw [List.findIdx?_eq_some_iff_getElem] at h
  obtain ⟨hl, hf, _⟩ := h
  exact ⟨t.slots[c], by simp [hl], hf⟩

theorem findFree_none {t : Table} (h : findFree t = none) (i : Nat) (s : Slot)
    (hs : t.slots[i]? = some s) : s.free = false := by
  unfold findFree at h
  rw [List.findIdx?_eq_none_iff] at h
  exact h s (List.mem_of_getElem? hs)

/-- What trying to reach a server does to the places: only the place itself and free places
change, and the place itself keeps its clients. -/
structure Connected (b : Nat) (s : Slot) (t t' : Table) : Prop where
  here : ∃ s', t'.slots[b]? = some s' ∧ s'.loc = true ∧ s'.clients = s.clients ∧ s'.query = s.query ∧
    s'.retries = s.retries ∧ (s'.die = s.die ∨ 0 < s'.die)
  busy : ∀ (i : Nat) (x : Slot), i ≠ b → t.slots[i]? = some x → x.free = false → t'.slots[i]? = some x
  free : ∀ (i : Nat) (x : Slot), i ≠ b → t'.slots[i]? = some x →
    t.slots[i]? = some x ∨ (Ok true x ∧ ∃ y, t.slots[i]? = some y ∧ y.free = true)

theorem connect_spec (cfg : Cfg) (now : Nat) (hlim : 0 < cfg.limit) :
    ∀ (net : Net) (b : Nat) (t : Table) (s : Slot), t.slots[b]? = some s → s.loc = true →
      Connected b s t (connect cfg now net b t) ∧
      (∀ name n, net = .refer name n → findFree t ≠ none →
        ∃ s', (connect cfg now net b t).slots[b]? = some s' ∧ 0 < s'.die) ∧
      (net = .ok → ∃ s', (connect cfg now net b t).slots[b]? = some s' ∧ s'.sock = true)
  | .fail, b, t, s, hs, hl =>
    ⟨⟨⟨s, hs, hl, rfl, rfl, rfl, Or.inl rfl⟩, fun _ _ _ h _ => h, fun _ _ _ h => Or.inl h⟩,
      by simp, by simp⟩
  | .stop, b, t, s, hs, hl =>
    ⟨⟨⟨s, hs, hl, rfl, rfl, rfl, Or.inl rfl⟩, fun _ _ _ h _ => h, fun _ _ _ h => Or.inl h⟩,
      by simp, by simp⟩
  | .ok, b, t, s, hs, hl => by
    have e : connect cfg now .ok b t = setSlot t b { s with sock := true } := by
      simp [connect, hs]
    rw [e]
    have hb : (setSlot t b { s with sock := true }).slots[b]? = some { s with sock := true } :=
      get_set_self hs
    refine ⟨⟨⟨_, hb, hl, rfl, rfl, rfl, Or.inl rfl⟩, ?_, ?_⟩, by simp, fun _ => ⟨_, hb, rfl⟩⟩
    · intro i x hi hx _
      show (t.slots.set b _)[i]? = some x
      rw [get_set]
      exact Or.inr ⟨Ne.symm hi, hx⟩
    · intro i x hi hx
      change (t.slots.set b _)[i]? = some x at hx
      rw [get_set] at hx
      rcases hx with ⟨h, _⟩ | ⟨_, h⟩
      · exact absurd h.symm hi
      · exact Or.inl h
  | .refer name net, b, t, s, hs, hl => by
    cases hf : findFree t with
    | none =>
      have e : connect cfg now (.refer name net) b t = t := by simp [connect, hf]
      rw [e]
      exact ⟨⟨⟨s, hs, hl, rfl, rfl, rfl, Or.inl rfl⟩, fun _ _ _ h _ => h, fun _ _ _ h => Or.inl h⟩,
        by simp, by simp⟩
    | some c =>
      obtain ⟨y, hy, hyf⟩ := findFree_some hf
      have hcb : c ≠ b := by
        rintro rfl
        rw [hs] at hy
        cases hy
        simp [Slot.free, hl] at hyf
      -- the new place
      obtain ⟨t2, ht2⟩ : ∃ t2, t2 = setSlot (reset cfg t c) c
          { Slot.empty cfg with query := some name, loc := true } := ⟨_, rfl⟩
      have hslots2 : t2.slots = t.slots.set c { Slot.empty cfg with query := some name, loc := true } := by
        rw [ht2]
        show (reset cfg t c).slots.set c _ = _
        rw [reset_slots, List.set_set]
      have hc2 : t2.slots[c]? = some { Slot.empty cfg with query := some name, loc := true } := by
        rw [hslots2]; exact get_set_self hy
      obtain ⟨⟨⟨u, hu, hul, huc, _, _, _⟩, hbusy, hfree⟩, _, _⟩ :=
        connect_spec cfg now hlim net c t2 _ hc2 rfl
      obtain ⟨t3, ht3⟩ : ∃ t3, t3 = connect cfg now net c t2 := ⟨_, rfl⟩
      rw [← ht3] at hu hbusy hfree
      have hb2 : t2.slots[b]? = some s := by
        rw [hslots2, get_set]; exact Or.inr ⟨hcb, hs⟩
      have hb3 : t3.slots[b]? = some s :=
        hbusy b s (Ne.symm hcb) hb2 (by simp [Slot.free, hl])
      obtain ⟨t4, ht4⟩ : ∃ t4, t4 = setSlot t3 b { s with die := now + 16 * cfg.limit } := ⟨_, rfl⟩
      have hb4 : t4.slots[b]? = some { s with die := now + 16 * cfg.limit } := by
        rw [ht4]; exact get_set_self hb3
      have hc4 : t4.slots[c]? = some u := by
        rw [ht4]
        show (t3.slots.set b _)[c]? = _
        rw [get_set]; exact Or.inr ⟨Ne.symm hcb, hu⟩
      -- the last step only concerns place c
      obtain ⟨v, hv, hvok⟩ : ∃ v : Slot, (connect cfg now (.refer name net) b t).slots = t4.slots.set c v ∧
          Ok true v := by
        have e : connect cfg now (.refer name net) b t =
            (if u.sock then setSlot t4 c { u with die := now + cfg.limit } else reset cfg t4 c) := by
          simp only [connect, hf]
          rw [← ht2, ← ht3]
          simp only [hb3]
          rw [← ht4]
          simp only [hc4]
        by_cases hsk : u.sock
        · refine ⟨{ u with die := now + cfg.limit }, by rw [e, if_pos hsk]; rfl, Or.inr ⟨hul, ?_, ?_⟩⟩
          · intro _
            show 0 < now + cfg.limit
            omega
          · intro z hz
            rw [show ({ u with die := now + cfg.limit } : Slot).clients = u.clients from rfl, huc] at hz
            simp [Slot.empty] at hz
        · exact ⟨Slot.empty cfg, by rw [e, if_neg hsk, reset_slots], ok_empty _ _⟩
      have hbfin : (connect cfg now (.refer name net) b t).slots[b]? =
          some { s with die := now + 16 * cfg.limit } := by
        rw [hv, get_set]; exact Or.inr ⟨hcb, hb4⟩
      refine ⟨⟨⟨_, hbfin, hl, rfl, rfl, rfl, Or.inr (by show 0 < now + 16 * cfg.limit; omega)⟩, ?_, ?_⟩,
        fun _ _ _ _ => ⟨_, hbfin, by show 0 < now + 16 * cfg.limit; omega⟩, by simp⟩
      · intro i x hi hx hxf
        have hic : i ≠ c := by
          rintro rfl
          rw [hy] at hx; cases hx
          rw [hyf] at hxf; cases hxf
        have h2 : t2.slots[i]? = some x := by
          rw [hslots2, get_set]; exact Or.inr ⟨Ne.symm hic, hx⟩
        have h3 := hbusy i x hic h2 hxf
        rw [hv, get_set]
        refine Or.inr ⟨Ne.symm hic, ?_⟩
        rw [ht4]
        show (t3.slots.set b _)[i]? = _
        rw [get_set]; exact Or.inr ⟨Ne.symm hi, h3⟩
      · intro i x hi hx
        rw [hv, get_set] at hx
        rcases hx with ⟨h, _, h2⟩ | ⟨hic, hx⟩
        · subst h; subst h2
          exact Or.inr ⟨hvok, y, hy, hyf⟩
        · rw [ht4] at hx
          change (t3.slots.set b _)[i]? = _ at hx
          rw [get_set] at hx
          rcases hx with ⟨h, _⟩ | ⟨_, hx⟩
          · exact absurd h.symm hi
          · have hback : ∀ z, t2.slots[i]? = some z → t.slots[i]? = some z := by
              intro z hz
              rw [hslots2, get_set] at hz
              rcases hz with ⟨h, _⟩ | ⟨_, h⟩
              · exact absurd h hic
              · exact h
            rcases hfree i x (Ne.symm hic) hx with h | ⟨h, z, hz, hzf⟩
            · exact Or.inl (hback x h)
            · exact Or.inr ⟨h, z, hback z hz, hzf⟩

theorem Ok.weaken {strict : Bool} {s : Slot} (h : Ok true s) : Ok strict s := by
  rcases h with h | ⟨h1, h2, h3⟩
  · exact Or.inl h
  · exact Or.inr ⟨h1, fun _ => h2 rfl, h3⟩

/-- Places other than the one concerned stay in order. -/
theorem Connected.good {strict : Bool} {b : Nat} {s : Slot} {t t' : Table} (h : Connected b s t t')
    (hg : ∀ (i : Nat) (x : Slot), i ≠ b → t.slots[i]? = some x → Ok strict x) (i : Nat) (x : Slot)
    (hi : i ≠ b) (hx : t'.slots[i]? = some x) : Ok strict x := by
  rcases h.free i x hi hx with h | ⟨h, _⟩
  · exact hg i x hi h
  · exact h.weaken

theorem Good.unlist {strict : Bool} {t : Table} (h : Good strict t) (q : List UInt8) :
    Good strict (unlist t q) := h

theorem Good.set {strict : Bool} {t : Table} {b : Nat} {s : Slot}
    (h : ∀ (i : Nat) (x : Slot), i ≠ b → t.slots[i]? = some x → Ok strict x) (hs : Ok strict s) :
    Good strict (setSlot t b s) := by
  intro i x hx
  change (t.slots.set b s)[i]? = some x at hx
  rw [get_set] at hx
  rcases hx with ⟨_, _, h2⟩ | ⟨hi, hx⟩
  · subst h2; exact hs
  · exact h i x (Ne.symm hi) hx

theorem Good.reset' {strict : Bool} {t : Table} {b : Nat} (cfg : Cfg)
    (h : ∀ (i : Nat) (x : Slot), i ≠ b → t.slots[i]? = some x → Ok strict x) :
    Good strict (reset cfg t b) := by
  intro i x hx
  rw [reset_slots, get_set] at hx
  rcases hx with ⟨_, _, h2⟩ | ⟨hi, hx⟩
  · subst h2; exact ok_empty _ _
  · exact h i x (Ne.symm hi) hx

/-- What `find_inflight_query` finds is a request for the same question that is on its way. -/
theorem findInflight_spec {cfg : Cfg} {t : Table} {q : List UInt8} {b : Option Nat} {t' : Table}
    (h : findInflight cfg t q = (b, t')) :
    t'.slots = t.slots ∧ ∀ b', b = some b' → t' = t ∧
      ∃ s, t.slots[b']? = some s ∧ s.sock = true ∧ s.query = some q := by
  unfold findInflight at h
  split at h
  · cases h; exact ⟨rfl, by simp⟩
  · cases hl : look t q with
    | none => simp only [hl] at h; cases h; exact ⟨rfl, by simp⟩
    | some c =>
      simp only [hl] at h
      cases hs : t.slots[c]? with
      | none => simp only [hs] at h; cases h; exact ⟨rfl, by simp⟩
      | some s =>
        simp only [hs] at h
        split at h
        · cases h; exact ⟨rfl, by simp⟩
        · split at h
          · rename_i h1 h2
            cases h
            refine ⟨rfl, fun b' hb' => ⟨rfl, s, ?_, by simpa using h1, h2⟩⟩
            cases hb'; exact hs
          · cases h; exact ⟨rfl, by simp⟩

/-- Number of free places. -/
def freeCount (t : Table) : Nat := (t.slots.filter Slot.free).length

/-- An event that cannot lose a place: a client's question whose name server's address has to
be found first comes only when a second place is free. -/
def Calm (strict : Bool) (t : Table) : Ev → Prop
  | .arrive _ _ net => strict = true → net = .ok ∨ net = .fail ∨ (net ≠ .stop ∧ 2 ≤ freeCount t)
  | _ => True

theorem second_free {l : List Slot} {b : Nat} {s x : Slot} (h2 : 2 ≤ (l.filter Slot.free).length)
    (hx : l[b]? = some x) : (l.set b s).findIdx? Slot.free ≠ none := by
  induction l generalizing b with
  | nil => simp at h2
  | cons a l ih =>
    cases b with
    | zero =>
      have h1 : 1 ≤ (l.filter Slot.free).length := by
        rw [List.filter_cons] at h2
        split at h2
        · simp at h2; omega
        · omega
      obtain ⟨y, hy⟩ := List.exists_mem_of_length_pos (show 0 < (l.filter Slot.free).length by omega)
      rw [List.mem_filter] at hy
      intro hn
      rw [List.set_cons_zero, List.findIdx?_eq_none_iff] at hn
      have := hn y (by simp [hy.1])
      rw [hy.2] at this; cases this
    | succ b =>
      rw [List.set_cons_succ]
      intro hn
      rw [List.findIdx?_eq_none_iff] at hn
      have ha := hn a (by simp)
      have h2' : 2 ≤ (l.filter Slot.free).length := by
        rw [List.filter_cons, if_neg (by simp [ha])] at h2
        exact h2
      apply ih h2' (b := b) (by simpa using hx)
      rw [List.findIdx?_eq_none_iff]
      intro z hz
      exact hn z (by simp [hz])

/-- Joining. -/
theorem good_join {strict : Bool} {cfg : Cfg} {t : Table} {b now : Nat} {q : List UInt8} {s : Slot}
    (hlim : 0 < cfg.limit)
    (h : ∀ (i : Nat) (x : Slot), i ≠ b → t.slots[i]? = some x → Ok strict x)
    (hs : t.slots[b]? = some s) (hl : s.loc = true) (hc : ∀ c ∈ s.clients, s.query = some c)
    (hq : s.query = some q) : Good strict (join cfg now t b q) := by
  simp only [join, hs]
  refine Good.set h (Or.inr ⟨hl, fun _ => ?_, ?_⟩)
  · show 0 < now + cfg.limit
    omega
  · intro c hc'
    rcases List.mem_append.1 hc' with h' | h'
    · exact hc c h'
    · simp at h'; subst h'; exact hq

theorem enlist_slots (cfg : Cfg) (t : Table) (b : Nat) (q : List UInt8) :
    (enlist cfg t b q).slots = t.slots := by
  unfold enlist; split <;> rfl

/-- Every event keeps the places in order. -/
theorem step_good {strict : Bool} {cfg : Cfg} (hlim : 0 < cfg.limit) {t : Table} (h : Good strict t)
    {e : Ev} (hc : Calm strict t e) : Good strict (step cfg t e) := by
  cases e with
  | lapse q => exact h
  | done b =>
    simp only [step]
    cases hs : t.slots[b]? with
    | none => exact h
    | some s =>
      simp only
      split
      · exact Good.reset' cfg (fun i x _ hx => h i x hx)
      · exact h
  | next now b net =>
    simp only [step]
    cases hs : t.slots[b]? with
    | none => exact h
    | some s =>
      simp only
      split
      · rename_i hd
        rcases h b s hs with h0 | ⟨hl, hd', hcl⟩
        · omega
        · obtain ⟨hcon, _, _⟩ := connect_spec cfg now hlim net b t s hs hl
          intro i x hx
          by_cases hi : i = b
          · subst hi
            obtain ⟨s', hs', h1, h2, h3, _, h5⟩ := hcon.here
            rw [hs'] at hx; cases hx
            refine Or.inr ⟨h1, fun _ => by omega, ?_⟩
            rw [h2, h3]; exact hcl
          · exact hcon.good (fun i x _ hx => h i x hx) i x hi hx
      · exact h
  | expire now b net =>
    simp only [step, expire]
    cases hs : t.slots[b]? with
    | none => exact h
    | some s =>
      simp only
      split
      · split
        · rename_i hd _
          rcases h b s hs with h0 | ⟨hl, hd', hcl⟩
          · omega
          · obtain ⟨t1, ht1⟩ : ∃ t1, t1 = setSlot t b { s with retries := s.retries - 1, sock := false } :=
              ⟨_, rfl⟩
            rw [← ht1]
            have hs1 : t1.slots[b]? = some { s with retries := s.retries - 1, sock := false } := by
              rw [ht1]; exact get_set_self hs
            have hg1 : ∀ (i : Nat) (x : Slot), i ≠ b → t1.slots[i]? = some x → Ok strict x := by
              intro i x hi hx
              rw [ht1] at hx
              change (t.slots.set b _)[i]? = some x at hx
              rw [get_set] at hx
              rcases hx with ⟨h', _⟩ | ⟨_, hx⟩
              · exact absurd h'.symm hi
              · exact h i x hx
            obtain ⟨hcon, _, _⟩ := connect_spec cfg now hlim net b t1 _ hs1 hl
            obtain ⟨s', hs', h1, h2, h3, _, _⟩ := hcon.here
            simp only [hs']
            refine Good.set (fun i x hi hx => hcon.good hg1 i x hi hx) (Or.inr ⟨h1, fun _ => ?_, ?_⟩)
            · show 0 < now + cfg.limit
              omega
            · show ∀ c ∈ s'.clients, s'.query = some c
              rw [h2, h3]; exact hcl
        · exact Good.reset' cfg (fun i x _ hx => h i x hx)
      · exact h
  | arrive now q net =>
    simp only [step, arrive]
    cases hfi : findInflight cfg t q with
    | mk ob t0 =>
      obtain ⟨hsl, hsome⟩ := findInflight_spec hfi
      cases ob with
      | some b =>
        obtain ⟨rfl, s, hs, _, hq⟩ := hsome b rfl
        simp only [hs]
        split
        · exact h
        · rcases h b s hs with h0 | ⟨hl, _, hcl⟩
          · rename_i hsock _
            exact absurd h0.1 (by simp_all)
          · exact good_join hlim (fun i x _ hx => h i x hx) hs hl hcl hq
      | none =>
        have h0 : Good strict t0 := by intro i x hx; rw [hsl] at hx; exact h i x hx
        simp only
        cases hf : findFree t0 with
        | none => exact h0
        | some b =>
          obtain ⟨y, hy, hyf⟩ := findFree_some hf
          simp only
          obtain ⟨t1, ht1⟩ : ∃ t1, t1 = setSlot (reset cfg t0 b) b
              { Slot.empty cfg with query := some q, loc := true } := ⟨_, rfl⟩
          rw [← ht1]
          have hslots1 : t1.slots = t0.slots.set b { Slot.empty cfg with query := some q, loc := true } := by
            rw [ht1]
            show (reset cfg t0 b).slots.set b _ = _
            rw [reset_slots, List.set_set]
          have hb1 : t1.slots[b]? = some { Slot.empty cfg with query := some q, loc := true } := by
            rw [hslots1]; exact get_set_self hy
          have hg1 : ∀ (i : Nat) (x : Slot), i ≠ b → t1.slots[i]? = some x → Ok strict x := by
            intro i x hi hx
            rw [hslots1, get_set] at hx
            rcases hx with ⟨h', _⟩ | ⟨_, hx⟩
            · exact absurd h'.symm hi
            · exact h0 i x hx
          obtain ⟨hcon, href, hok⟩ := connect_spec cfg now hlim net b t1 _ hb1 rfl
          obtain ⟨s', hs', h1, h2, h3, _, h5⟩ := hcon.here
          have hgood : ∀ (i : Nat) (x : Slot), i ≠ b →
              (connect cfg now net b t1).slots[i]? = some x → Ok strict x :=
            fun i x hi hx => hcon.good hg1 i x hi hx
          have hrest : (strict = true → 0 < s'.die) → Good strict (connect cfg now net b t1) := by
            intro hd i x hx
            by_cases hi : i = b
            · subst hi
              rw [hs'] at hx; cases hx
              refine Or.inr ⟨h1, hd, ?_⟩
              rw [h2]; simp [Slot.empty]
            · exact hgood i x hi hx
          cases net with
          | ok =>
            simp only
            refine good_join hlim (s := s') (fun i x hi hx => hgood i x hi ?_) ?_ h1 ?_ ?_
            · rw [enlist_slots] at hx; exact hx
            · rw [enlist_slots]; exact hs'
            · rw [h2]; simp [Slot.empty]
            · rw [h3]
          | fail => exact Good.reset' cfg hgood
          | stop =>
            simp only
            refine hrest (fun hst => ?_)
            have := hc hst
            simp at this
          | refer name n =>
            simp only
            refine hrest (fun hst => ?_)
            have hcc := hc hst
            simp at hcc
            have hff : findFree t1 ≠ none := by
              unfold findFree
              rw [hslots1]
              have : freeCount t0 = freeCount t := by unfold freeCount; rw [hsl]
              exact second_free (by have := hcc; unfold freeCount at *; omega) hy
            obtain ⟨s2, hs2, hd2⟩ := href name n rfl hff
            rw [hs'] at hs2; cases hs2
            exact hd2

/-- Every event in turn is calm. -/
def AllCalm (strict : Bool) (cfg : Cfg) : Table → List Ev → Prop
  | _, [] => True
  | t, e :: es => Calm strict t e ∧ AllCalm strict cfg (step cfg t e) es

theorem run_good {strict : Bool} {cfg : Cfg} (hlim : 0 < cfg.limit) :
    ∀ (es : List Ev) (t : Table), Good strict t → AllCalm strict cfg t es → Good strict (run cfg t es)
  | [], _, h, _ => h
  | _ :: es, _, h, hc => run_good hlim es _ (step_good hlim h hc.1) hc.2

theorem start_good (strict : Bool) (cfg : Cfg) (n : Nat) : Good strict (start cfg n) := by
  intro i s hs
  have := List.mem_of_getElem? hs
  simp [start] at this
  rw [this.2]
  exact ok_empty _ _

theorem all_calm (cfg : Cfg) : ∀ (es : List Ev) (t : Table), AllCalm false cfg t es
  | [], _ => trivial
  | e :: es, t => ⟨by cases e <;> simp [Calm], all_calm cfg es _⟩

/-- **C48.**  After any sequence of arrivals, replies, referrals, time-outs and lapsing
entries, the clients waiting on a request all asked the question of that request. -/
theorem clients_asked_it (cfg : Cfg) (hlim : 0 < cfg.limit) (n : Nat) (es : List Ev) (i : Nat) (s : Slot)
    (hs : (run cfg (start cfg n) es).slots[i]? = some s) : ∀ c ∈ s.clients, s.query = some c := by
  rcases run_good hlim es _ (start_good false cfg n) (all_calm cfg es _) i s hs with h | ⟨_, _, h⟩
  · simp [h.2.2.2]
  · exact h

example : (run ⟨1, 8, 256⟩ (start ⟨1, 8, 256⟩ 2)
    [.arrive 10 [1] .ok, .arrive 11 [2] .ok, .arrive 12 [1] .ok, .arrive 13 [3] .ok, .done 1]).slots =
    [⟨true, true, some [1], [[1], [1]], 268, 1⟩, ⟨false, false, none, [], 0, 1⟩] := by decide +kernel

/-- **C48**, joining: a client that is let in waits at a place whose request is on its way and
asks just that question; and if the question was listed as on its way no further request
is made. -/
theorem arrive_joins {cfg : Cfg} (hlim : 0 < cfg.limit) {now : Nat} {q : List UInt8} {net : Net}
    {t t' : Table} {b : Nat} (h : arrive cfg now q net t = (some b, t')) :
    (∃ s, t'.slots[b]? = some s ∧ s.sock = true ∧ s.query = some q ∧ q ∈ s.clients) ∧
    ((findInflight cfg t q).1 ≠ none → t'.slots.map Slot.sock = t.slots.map Slot.sock) := by
  simp only [arrive] at h
  cases hfi : findInflight cfg t q with
  | mk ob t0 =>
    obtain ⟨hsl, hsome⟩ := findInflight_spec hfi
    rw [hfi] at h
    cases ob with
    | some b0 =>
      obtain ⟨rfl, s, hs, hk, hq⟩ := hsome b0 rfl
      simp only [hs] at h
      split at h
      · cases h
      · cases h
        simp only [join, hs]
        refine ⟨⟨_, get_set_self hs, hk, hq, by simp⟩, fun _ => ?_⟩
        show (t0.slots.set b _).map Slot.sock = _
        rw [List.map_set]
        apply List.ext_getElem?
        intro i
        rw [List.getElem?_set]
        split
        · rename_i hi
          subst hi
          have hlen : b < t0.slots.length := by
            rcases Nat.lt_or_ge b t0.slots.length with h' | h'
            · exact h'
            · rw [List.getElem?_eq_none h'] at hs; simp at hs
          simp [hlen]
          rw [List.getElem?_eq_getElem hlen] at hs
          cases hs; rfl
        · rfl
    | none =>
      simp only at h
      refine ⟨?_, by simp⟩
      cases hf : findFree t0 with
      | none => rw [hf] at h; cases h
      | some c =>
        rw [hf] at h
        obtain ⟨y, hy, _⟩ := findFree_some hf
        obtain ⟨t1, ht1⟩ : ∃ t1, t1 = setSlot (reset cfg t0 c) c
            { Slot.empty cfg with query := some q, loc := true } := ⟨_, rfl⟩
        simp only at h
        rw [← ht1] at h
        have hc1 : t1.slots[c]? = some { Slot.empty cfg with query := some q, loc := true } := by
          rw [ht1]
          show ((reset cfg t0 c).slots.set c _)[c]? = _
          rw [reset_slots, List.set_set]
          exact get_set_self hy
        obtain ⟨hcon, _, hok⟩ := connect_spec cfg now hlim net c t1 _ hc1 rfl
        obtain ⟨s', hs', _, _, h3, _, _⟩ := hcon.here
        cases net with
        | ok =>
          simp only at h
          cases h
          obtain ⟨s2, hs2, hk⟩ := hok rfl
          rw [hs'] at hs2; cases hs2
          have hen : (enlist cfg (connect cfg now .ok b t1) b q).slots[b]? = some s' := by
            rw [enlist_slots]; exact hs'
          simp only [join, hen]
          exact ⟨_, get_set_self hen, hk, h3, by simp⟩
        | fail => cases h
        | stop => cases h
        | refer _ _ => cases h

example : (arrive ⟨1, 8, 256⟩ 12 [1] .ok (run ⟨1, 8, 256⟩ (start ⟨1, 8, 256⟩ 2) [.arrive 10 [1] .ok])).1 =
    some 0 := by decide +kernel

/-- **C48**, no place is lost: if a client's question that first needs the address of a name
server only ever comes when a second place is free, then after any sequence of events every
place is free or has a time at which it is given up. -/
theorem no_leak_partial (cfg : Cfg) (hlim : 0 < cfg.limit) (n : Nat) (es : List Ev)
    (hc : AllCalm true cfg (start cfg n) es) (i : Nat) (s : Slot)
    (hs : (run cfg (start cfg n) es).slots[i]? = some s) : s.free = true ∨ 0 < s.die := by
  rcases run_good hlim es _ (start_good true cfg n) hc i s hs with h | ⟨_, h, _⟩
  · left; simp [Slot.free, h.1, h.2.1]
  · right; exact h rfl

example : AllCalm true ⟨1, 8, 256⟩ (start ⟨1, 8, 256⟩ 2)
    [.arrive 10 [1] (.refer [2] .ok), .arrive 11 [3] .ok, .done 1] := by
  refine ⟨fun _ => ?_, fun _ => Or.inl rfl, trivial, trivial⟩
  right; right
  decide

/-- Times of time-out tests, each later than the last by more than the limit. -/
def Late (limit : Nat) : Nat → List (Nat × Net) → Prop
  | _, [] => True
  | die, (now, _) :: es => die < now ∧ Late limit (now + limit) es

/-- **C48**, places are given back: a request that gets no answer is given up after its last
retry, whatever the retries meet. -/
theorem expire_releases (cfg : Cfg) (hlim : 0 < cfg.limit) :
    ∀ (es : List (Nat × Net)) (t : Table) (b : Nat) (s : Slot), t.slots[b]? = some s → s.loc = true →
      0 < s.die → es.length = s.retries + 1 → Late cfg.limit s.die es →
      ∃ s', (run cfg t (es.map fun e => .expire e.1 b e.2)).slots[b]? = some s' ∧ s'.free = true
  | [], _, _, _, _, _, _, h, _ => by simp at h
  | (now, net) :: es, t, b, s, hs, hl, hd, hlen, hlate => by
    have hnow : 0 < s.die ∧ s.die < now := ⟨hd, hlate.1⟩
    by_cases hr : 0 < s.retries
    · obtain ⟨t1, ht1⟩ : ∃ t1, t1 = setSlot t b { s with retries := s.retries - 1, sock := false } :=
        ⟨_, rfl⟩
      have hs1 : t1.slots[b]? = some { s with retries := s.retries - 1, sock := false } := by
        rw [ht1]; exact get_set_self hs
      obtain ⟨hcon, _, _⟩ := connect_spec cfg now hlim net b t1 _ hs1 hl
      obtain ⟨s', hs', h1, _, _, h4, _⟩ := hcon.here
      have hstep : step cfg t (.expire now b net) =
          setSlot (connect cfg now net b t1) b { s' with die := now + cfg.limit } := by
        simp only [step, expire, hs]
        rw [if_pos hnow, if_pos hr, ← ht1]
        simp only [hs']
      have ih := expire_releases cfg hlim es (step cfg t (.expire now b net)) b
        { s' with die := now + cfg.limit } (by rw [hstep]; exact get_set_self hs') h1
        (by show 0 < now + cfg.limit; omega)
        (by show es.length = s'.retries + 1
            rw [h4]
            simp at hlen
            show es.length = s.retries - 1 + 1
            omega)
        hlate.2
      exact ih
    · have hes : es = [] := by
        simp at hlen
        exact List.eq_nil_of_length_eq_zero (by omega)
      subst hes
      refine ⟨Slot.empty cfg, ?_, rfl⟩
      show (step cfg t (.expire now b net)).slots[b]? = _
      simp only [step, expire, hs]
      rw [if_pos hnow, if_neg hr, reset_slots]
      exact get_set_self hs

example : (run ⟨1, 8, 256⟩ (start ⟨1, 8, 256⟩ 1)
    [.arrive 10 [1] .ok, .expire 300 0 .fail, .expire 600 0 .ok]).slots =
    [⟨false, false, none, [], 0, 1⟩] := by decide +kernel

/-- A place that is taken but has neither socket nor time-out. -/
def Lost (s : Slot) : Prop := s.loc = true ∧ s.sock = false ∧ s.die = 0

/-- A lost place stays lost, whatever happens. -/
theorem lost_forever (cfg : Cfg) (hlim : 0 < cfg.limit) {b : Nat} {s : Slot} (hl : Lost s) :
    ∀ (es : List Ev) (t : Table), t.slots[b]? = some s → (run cfg t es).slots[b]? = some s
  | [], _, h => h
  | e :: es, t, h => by
    refine lost_forever cfg hlim hl es (step cfg t e) ?_
    have hnf : s.free = false := by simp [Slot.free, hl.1]
    have keep : ∀ (c : Nat) (x y : Slot) (l : List Slot), l[b]? = some s → c ≠ b → (l.set c y)[b]? = some s := by
      intro c x y l hb hc
      rw [get_set]; exact Or.inr ⟨hc, hb⟩
    cases e with
    | lapse q => exact h
    | done c =>
      simp only [step]
      cases hs : t.slots[c]? with
      | none => exact h
      | some x =>
        simp only
        split
        · rename_i hk
          rw [reset_slots]
          refine keep c x _ _ h ?_
          rintro rfl
          rw [h] at hs; cases hs
          simp [hl.2.1] at hk
        · exact h
    | next now c net =>
      simp only [step]
      cases hs : t.slots[c]? with
      | none => exact h
      | some x =>
        simp only
        split
        · rename_i hk
          have hcb : c ≠ b := by
            rintro rfl
            rw [h] at hs; cases hs
            have := hl.2.2
            omega
          by_cases hxl : x.loc = true
          · exact (connect_spec cfg now hlim net c t x hs hxl).1.busy b s (Ne.symm hcb) h hnf
          · -- a place with a time but no clients cannot be reached by `connect` without them
            exact connect_keeps cfg now hlim net c b t s h hcb hnf
        · exact h
    | expire now c net =>
      simp only [step, expire]
      cases hs : t.slots[c]? with
      | none => exact h
      | some x =>
        simp only
        split
        · rename_i hk
          have hcb : c ≠ b := by
            rintro rfl
            rw [h] at hs; cases hs
            have := hl.2.2
            omega
          split
          · have h1 := connect_keeps cfg now hlim net c b
              (setSlot t c { x with retries := x.retries - 1, sock := false }) s
              (keep c x _ _ h hcb) hcb hnf
            split
            · exact h1
            · exact keep c x _ _ h1 hcb
          · rw [reset_slots]
            exact keep c x _ _ h hcb
        · exact h
    | arrive now q net =>
      simp only [step, arrive]
      cases hfi : findInflight cfg t q with
      | mk ob t0 =>
        obtain ⟨hsl, hsome⟩ := findInflight_spec hfi
        cases ob with
        | some c =>
          obtain ⟨rfl, x, hs, hk, hq⟩ := hsome c rfl
          simp only [hs]
          split
          · exact h
          · simp only [join, hs]
            refine keep c x _ _ h ?_
            rintro rfl
            rw [h] at hs; cases hs
            simp [hl.2.1] at hk
        | none =>
          have h0 : t0.slots[b]? = some s := by rw [hsl]; exact h
          simp only
          cases hf : findFree t0 with
          | none => exact h0
          | some c =>
            obtain ⟨y, hy, hyf⟩ := findFree_some hf
            have hcb : c ≠ b := by
              rintro rfl
              rw [h0] at hy; cases hy
              rw [hnf] at hyf; cases hyf
            simp only
            have h1 : (setSlot (reset cfg t0 c) c
                { Slot.empty cfg with query := some q, loc := true }).slots[b]? = some s := by
              refine keep c y _ _ ?_ hcb
              rw [reset_slots]
              exact keep c y _ _ h0 hcb
            have h2 := connect_keeps cfg now hlim net c b _ s h1 hcb hnf
            cases net with
            | ok =>
              simp only
              unfold join
              split
              · rw [enlist_slots]; exact h2
              · refine keep c y _ _ ?_ hcb
                rw [enlist_slots]; exact h2
            | fail =>
              simp only
              rw [reset_slots]
              exact keep c y _ _ h2 hcb
            | stop => exact h2
            | refer _ _ => exact h2
where
  /-- Trying to reach a server leaves other taken places alone. -/
  connect_keeps (cfg : Cfg) (now : Nat) (hlim : 0 < cfg.limit) :
      ∀ (net : Net) (c b : Nat) (t : Table) (s : Slot), t.slots[b]? = some s → c ≠ b → s.free = false →
        (connect cfg now net c t).slots[b]? = some s
    | .fail, _, _, _, _, h, _, _ => h
    | .stop, _, _, _, _, h, _, _ => h
    | .ok, c, b, t, s, h, hcb, _ => by
      simp only [connect]
      split
      · exact h
      · show (t.slots.set c _)[b]? = _
        rw [get_set]; exact Or.inr ⟨hcb, h⟩
    | .refer name net, c, b, t, s, h, hcb, hnf => by
      simp only [connect]
      cases hf : findFree t with
      | none => exact h
      | some d =>
        obtain ⟨y, hy, hyf⟩ := findFree_some hf
        have hdb : d ≠ b := by
          rintro rfl
          rw [h] at hy; cases hy
          rw [hnf] at hyf; cases hyf
        simp only
        have h2 : (connect cfg now net d (setSlot (reset cfg t d) d
            { Slot.empty cfg with query := some name, loc := true })).slots[b]? = some s := by
          refine connect_keeps cfg now hlim net d b _ s ?_ hdb hnf
          show ((reset cfg t d).slots.set d _)[b]? = _
          rw [reset_slots, List.set_set, get_set]
          exact Or.inr ⟨hdb, h⟩
        generalize connect cfg now net d (setSlot (reset cfg t d) d
            { Slot.empty cfg with query := some name, loc := true }) = t3 at h2 ⊢
        have fin : ∀ t4 : Table, t4.slots[b]? = some s →
            (match t4.slots[d]? with
              | none => t4
              | some s => if s.sock then setSlot t4 d { s with die := now + cfg.limit }
                else reset cfg t4 d).slots[b]? = some s := by
          intro t4 h4
          split
          · exact h4
          · split
            · show (t4.slots.set d _)[b]? = _
              rw [get_set]; exact Or.inr ⟨hdb, h4⟩
            · rw [reset_slots, get_set]; exact Or.inr ⟨hdb, h4⟩
        cases h3 : t3.slots[c]? with
        | none =>
          exact fin t3 h2
        | some z =>
          refine fin _ ?_
          show (t3.slots.set c _)[b]? = _
          rw [get_set]; exact Or.inr ⟨hcb, h2⟩

/-- The claim without that condition is false: when a client's question takes the last free
place and the address of its name server has to be found first, the place is lost. -/
theorem last_place_lost (cfg : Cfg) (now : Nat) (q name : List UInt8) (net : Net) :
    ∃ s, Lost s ∧ (run cfg (start cfg 1) [.arrive now q (.refer name net)]).slots[0]? = some s := by
  refine ⟨{ Slot.empty cfg with query := some q, loc := true }, ⟨rfl, rfl, rfl⟩, ?_⟩
  have hfi : findInflight cfg (start cfg 1) q = (none, start cfg 1) := by
    unfold findInflight
    split
    · rfl
    · simp [look, start]
  simp only [run, List.foldl_cons, List.foldl_nil, step, arrive, hfi]
  simp [findFree, start, Slot.empty, Slot.free, reset, setSlot, connect, List.findIdx?_cons]

end Infl
end Dw
