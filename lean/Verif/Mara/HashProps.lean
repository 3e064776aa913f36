import Verif.Mara.HashExact
/-!
# The associative arrays of MaraDNS (C67)
-/

namespace Mara
namespace Hash

open Dw (Res)
open Dict (Op Ans)

variable {ν : Type}

/-- One operation on an array. -/
def step (c : UInt32) (h : MHash ν) : Op ν → Res (Ans ν × MHash ν)
  | .put k v =>
    match put c h k v with
    | .ok h => .ok (.done, h)
    | .err => .ok (.refused, h)
    | .ub => .ub
  | .get k => do
    let v ← get c h k
    .ok (.value v, h)
  | .remove k => do
    let (v, h) ← undef c h k
    .ok (.value v, h)
  | .grow => do
    let (_, h) ← autogrow c h
    .ok (.done, h)

/-- A sequence of operations on an array: the answers. -/
def run (c : UInt32) : MHash ν → List (Op ν) → Res (List (Ans ν))
  | _, [] => .ok []
  | h, o :: l => do
    let (a, h) ← step c h o
    let r ← run c h l
    .ok (a :: r)

/-- The array holds the entries of a dictionary. -/
def Holds (h : MHash ν) (m : List UInt8 → Option ν) : Prop := ∀ k v, m k = some v ↔ (k, v) ∈ h.entries

theorem holds_none {h : MHash ν} {m : List UInt8 → Option ν} (hm : Holds h m) {k : List UInt8} (hk : m k = none) (w : ν) :
    (k, w) ∉ h.entries := by
  intro hw
  rw [(hm k w).2 hw] at hk
  cases hk

theorem holds_perm {h h' : MHash ν} {m : List UInt8 → Option ν} (hm : Holds h m) (hp : h'.entries.Perm h.entries) :
    Holds h' m := fun k v => (hm k v).trans hp.mem_iff.symm

theorem autogrow_ok {c : UInt32} {h : MHash ν} (inv : Inv c h) (hroom : h.bits = 24 → h.count < 2 ^ 23 - 1) :
    ∃ g h', autogrow c h = .ok (g, h') ∧ Inv c h' ∧ h'.entries.Perm h.entries
      ∧ ((h'.bits = h.bits ∧ h'.count = h.count) ∨ (h'.bits = h.bits + 1 ∧ h'.count = h.count + h.entries.length)) := by
  have hl := inv.low
  have hh := inv.high
  unfold autogrow
  rw [if_neg (by omega)]
  by_cases h4 : h.bits < 4
  · rw [if_pos h4]
    obtain ⟨h', p, i, q, b, n⟩ := resize_ok inv (bits := h.bits + 1) (by omega) (by omega)
    rw [p]
    exact ⟨true, h', rfl, i, q, .inr ⟨b, n⟩⟩
  · rw [if_neg h4, masks_eq (n := h.bits - 1) (by omega) (by omega)]
    by_cases hc : h.count ≥ 2 ^ (h.bits - 1) - 1
    · have : h.bits ≠ 24 := by
        intro he
        have h1 := hroom he
        rw [he] at hc
        exact absurd hc (by omega)
      obtain ⟨h', p, i, q, b, n⟩ := resize_ok inv (bits := h.bits + 1) (by omega) (by omega)
      refine ⟨true, h', ?_, i, q, .inr ⟨b, n⟩⟩
      simp only [if_pos hc, p, Res.ok_bind]
    · refine ⟨false, h, ?_, inv, List.Perm.refl _, .inl ⟨rfl, rfl⟩⟩
      simp only [if_neg hc]

/-- The induction behind `array_exact`. -/
theorem run_exact {c : UInt32} (E : Nat) (hE : 24 * E < 2 ^ 23 - 1) : ∀ (ops : List (Op ν)) (h : MHash ν)
    (m : List UInt8 → Option ν), Inv c h → Holds h m → h.entries.length + Dict.puts ops ≤ E → h.count + E ≤ h.entries.length + h.bits * E →
    run c h ops = .ok (Dict.run m ops)
  | [], _, _, _, _, _, _ => rfl
  | o :: l, h, m, inv, hm, hp, hc => by
    have hl := inv.low
    have hh := inv.high
    have hcnt := inv.counted
    have fin : ∀ (a : Ans ν) (h' : MHash ν), step c h o = .ok (a, h') → a = (Dict.step m o).1 → Inv c h' →
        Holds h' (Dict.step m o).2 → h'.entries.length + Dict.puts l ≤ E → h'.count + E ≤ h'.entries.length + h'.bits * E →
        run c h (o :: l) = .ok (Dict.run m (o :: l)) := by
      intro a h' h1 h2 h3 h4 h5 h6
      unfold run
      rw [h1, Res.ok_bind]
      simp only [run_exact E hE l h' _ h3 h4 h5 h6, Res.ok_bind, h2, Dict.run]
    cases o with
    | get k =>
      obtain ⟨o, h1, h2⟩ := get_mem inv k
      refine fin (.value o) h (by simp only [step, h1, Res.ok_bind]) ?_ inv hm hp hc
      have : o = m k := by
        cases hk : m k with
        | none =>
          cases o with
          | none => rfl
          | some v => exact absurd ((h2 v).1 rfl) (holds_none hm hk v)
        | some v => exact (h2 v).2 ((hm k v).1 hk)
      rw [this]
      rfl
    | put k v =>
      have hp' : h.entries.length + (Dict.puts l + 1) ≤ E := hp
      cases hk : m k with
      | some w =>
        have h1 := put_err inv ((hm k w).1 hk) v
        refine fin .refused h (by simp only [step, h1]) (by simp [Dict.step, hk]) inv ?_ (by omega) hc
        simpa [Dict.step, hk] using hm
      | none =>
        obtain ⟨h', h1, h2, h3, h4, h5⟩ := put_ok inv (holds_none hm hk) v
        refine fin .done h' (by simp only [step, h1]) (by simp [Dict.step, hk]) h2 ?_ ?_ ?_
        · intro x w
          simp only [Dict.step, hk, Option.isSome_none, Bool.false_eq_true, if_false]
          rw [h3.mem_iff, List.mem_cons]
          by_cases hx : x = k
          · subst hx
            simp [holds_none hm hk, eq_comm]
          · simp [hx, hm x w]
        · have := h3.length_eq
          rw [List.length_cons] at this
          omega
        · have := h3.length_eq
          rw [List.length_cons] at this
          rw [h4]
          omega
    | remove k =>
      cases hk : m k with
      | none =>
        have h1 := undef_none inv (holds_none hm hk)
        refine fin (.value none) h (by simp only [step, h1, Res.ok_bind]) (by simp [Dict.step, hk]) inv ?_ hp hc
        intro x w
        simp only [Dict.step]
        by_cases hx : x = k
        · subst hx
          simp [holds_none hm hk]
        · simp [hx, hm x w]
      | some w =>
        obtain ⟨h', h1, h2, h3, h4, h5⟩ := undef_some inv ((hm k w).1 hk)
        refine fin (.value (some w)) h' (by simp only [step, h1, Res.ok_bind]) (by simp [Dict.step, hk]) h2 ?_ ?_ ?_
        · intro x u
          simp only [Dict.step]
          have hu := (hm x u).trans h3.mem_iff
          rw [List.mem_cons] at hu
          by_cases hx : x = k
          · subst hx
            have : (x, u) ∉ h'.entries := by
              intro hxu
              have hn := ((h3.map (·.1)).nodup_iff).1 inv.once
              rw [List.map_cons, List.nodup_cons] at hn
              exact hn.1 (List.mem_map.2 ⟨_, hxu, rfl⟩)
            simp [this]
          · rw [if_neg hx, hu]
            simp [hx]
        · have := h3.length_eq
          rw [List.length_cons] at this
          have hp' : h.entries.length + Dict.puts l ≤ E := hp
          omega
        · have := h3.length_eq
          rw [List.length_cons] at this
          rw [h4]
          omega
    | grow =>
      have hp' : h.entries.length + Dict.puts l ≤ E := hp
      obtain ⟨g, h', h1, h2, h3, h4⟩ := autogrow_ok inv (fun h24 => by rw [h24] at hc; omega)
      refine fin .done h' (by simp only [step, h1, Res.ok_bind]) rfl h2 (holds_perm hm h3) ?_ ?_
      · rw [h3.length_eq]
        exact hp'
      · rcases h4 with ⟨a, b⟩ | ⟨a, b⟩
        · rw [a, b, h3.length_eq]; exact hc
        · rw [a, b, h3.length_eq, Nat.succ_mul]
          omega

/-- **C67.**  An array answers every sequence of operations as a dictionary does, as long as no
more than 349525 entries are put in. -/
theorem array_exact (c : UInt32) {bits : Nat} (h1 : 1 ≤ bits) (h2 : bits ≤ 24) (ops : List (Op ν))
    (hp : Dict.puts ops ≤ 349525) :
    (do
      let h ← create bits
      run c h ops) = .ok (Dict.run (fun _ => none) ops) := by
  obtain ⟨h, e, inv, he, hb, hn⟩ := create_ok (ν := ν) c h1 h2
  rw [e, Res.ok_bind]
  refine run_exact 349525 (by decide) ops h _ inv ?_ ?_ ?_
  · intro k v
    rw [he]
    simp
  · rw [he, List.length_nil]
    omega
  · rw [hn, he, hb, List.length_nil]
    omega

example : Dict.run (ν := Nat) (fun _ => none) [.put [1] 7, .put [1] 8, .grow, .get [1], .remove [1], .get [1]]
    = [.done, .refused, .done, .value (some 7), .value (some 7), .value none] := rfl

/-- **C67.**  Changing the size of the table keeps every entry. -/
theorem resize_keeps {c : UInt32} {h : MHash ν} (inv : Inv c h) {bits : Nat} (h1 : 1 ≤ bits) (h2 : bits ≤ 24) :
    ∃ h', resize c h bits = .ok h' ∧ Inv c h' ∧ ∀ k, get c h' k = get c h k := by
  obtain ⟨h', p, i, q, _, _⟩ := resize_ok inv h1 h2
  refine ⟨h', p, i, fun k => ?_⟩
  obtain ⟨o, g1, g2⟩ := get_mem inv k
  obtain ⟨o', g3, g4⟩ := get_mem i k
  rw [g1, g3]
  have : o' = o := by
    cases o with
    | none =>
      cases o' with
      | none => rfl
      | some v => exact absurd ((g2 v).2 (q.mem_iff.1 ((g4 v).1 rfl))) (by simp)
    | some v => exact (g4 v).2 (q.mem_iff.2 ((g2 v).1 rfl))
  rw [this]

/-! ## Going through all keys -/

/-- The key at the head of a list of entries. -/
def headKey (max : Nat) : List (List UInt8 × ν) → Res Step
  | [] => .ok .last
  | e :: _ => if e.1.length > max then .err else .ok (.key e.1)

theorem firstIn_eq (max : Nat) : ∀ (t : List (List (List UInt8 × ν))), firstIn max t = headKey max t.flatten
  | [] => rfl
  | [] :: t => by
    unfold firstIn
    exact firstIn_eq max t
  | (e :: a) :: t => rfl

theorem dropWhile_at {P Q : List (List UInt8 × ν)} {e : List UInt8 × ν} (h : ∀ x ∈ P, x.1 ≠ e.1) :
    (P ++ e :: Q).dropWhile (·.1 != e.1) = e :: Q := by
  induction P with
  | nil => simp [List.dropWhile_cons]
  | cons x P ih =>
    rw [List.cons_append, List.dropWhile_cons]
    have : (x.1 != e.1) = true := by simpa using h x (List.mem_cons_self ..)
    rw [if_pos this]
    exact ih fun y hy => h y (List.mem_cons_of_mem _ hy)

/-- The key after a key. -/
theorem nextkey_eq {c : UInt32} {h : MHash ν} (inv : Inv c h) {P Q : List (List UInt8 × ν)} {e : List UInt8 × ν} (max : Nat)
    (he : h.entries = P ++ e :: Q) : nextkey c max h e.1 = headKey max Q := by
  obtain ⟨i, chain, h1, _, h3⟩ := chain_at inv e.1
  obtain ⟨A, B, hT, hl, _⟩ := split_at h3
  have hin : (e.1, e.2) ∈ chain := (mem_entries inv h1 h3 e.2).1 (by rw [he]; simp)
  obtain ⟨C, D, hC⟩ := List.append_of_mem hin
  have hE : h.entries = (A.flatten ++ C) ++ e :: (D ++ B.flatten) := by
    rw [MHash.entries, hT, hC]
    simp
  have hn := inv.once
  have hPQ : P = A.flatten ++ C ∧ Q = D ++ B.flatten := by
    have key : ∀ (P P' Q Q' : List (List UInt8 × ν)), P ++ e :: Q = P' ++ e :: Q' →
        ((P ++ e :: Q).map (·.1)).Nodup → P = P' ∧ Q = Q' := by
      intro P
      induction P with
      | nil =>
        intro P' Q Q' h hn
        cases P' with
        | nil => injection h with _ h; exact ⟨rfl, h⟩
        | cons x P' =>
          injection h with a b
          rw [List.nil_append, List.map_cons, List.nodup_cons] at hn
          exact absurd (List.mem_map.2 ⟨e, by rw [b]; simp, rfl⟩) hn.1
      | cons x P ih =>
        intro P' Q Q' h hn
        cases P' with
        | nil =>
          injection h with a b
          rw [List.cons_append, List.map_cons, List.nodup_cons] at hn
          exact absurd (List.mem_map.2 ⟨e, by simp, by rw [a]⟩) hn.1
        | cons y P' =>
          injection h with a b
          rw [List.cons_append, List.map_cons, List.nodup_cons] at hn
          obtain ⟨h1, h2⟩ := ih P' Q Q' b hn.2
          exact ⟨by rw [a, h1], h2⟩
    exact key _ _ _ _ (he.symm.trans hE) (he ▸ hn)
  have hCne : ∀ x ∈ C, x.1 ≠ e.1 := by
    intro x hx hxe
    rw [hE, List.map_append, List.map_cons] at hn
    have := (List.nodup_append.1 hn).2.2 x.1 (List.mem_map.2 ⟨x, by simp [hx], rfl⟩) e.1 (List.mem_cons_self ..)
    exact this hxe
  unfold nextkey
  rw [h1, Res.ok_bind, h3]
  have hC' : chain = C ++ e :: D := hC
  have hdw := dropWhile_at (Q := D) hCne
  have hdrop : h.table.drop (i + 1) = B := by
    rw [hT, ← hl]
    simp
  rw [hPQ.2]
  simp only [hC', hdw]
  cases D with
  | nil => simp only [hdrop]; exact firstIn_eq max B
  | cons d D => rfl

/-- Going through an array, for a number of keys. -/
def visit (c : UInt32) (max : Nat) (h : MHash ν) : Nat → Step → Res (List (List UInt8))
  | _, .last => .ok []
  | 0, .key k => .ok [k]
  | n + 1, .key k => do
    let s ← nextkey c max h k
    let r ← visit c max h n s
    .ok (k :: r)

theorem visit_eq {c : UInt32} {h : MHash ν} (inv : Inv c h) {max : Nat} (hmax : ∀ e ∈ h.entries, e.1.length ≤ max) :
    ∀ (Q P : List (List UInt8 × ν)) (e : List UInt8 × ν), h.entries = P ++ e :: Q →
    visit c max h (Q.length + 1) (.key e.1) = .ok ((e :: Q).map (·.1))
  | [], P, e, he => by
    have := nextkey_eq inv max he
    unfold visit
    rw [this]
    rfl
  | d :: Q, P, e, he => by
    have := nextkey_eq inv max he
    have hd : d.1.length ≤ max := hmax d (by rw [he]; simp)
    have ih := visit_eq inv hmax Q (P ++ [e]) d (by rw [he]; simp)
    unfold visit
    rw [this]
    simp only [headKey, if_neg (Nat.not_lt.2 hd), Res.ok_bind]
    rw [List.length_cons, ih]
    rfl

/-- **C67.**  Going through an array from its first key gives every key of it once. -/
theorem visit_all {c : UInt32} {h : MHash ν} (inv : Inv c h) {max : Nat} (hmax : ∀ e ∈ h.entries, e.1.length ≤ max) :
    ∃ s keys, firstkey max h = .ok s ∧ visit c max h (h.entries.length) s = .ok keys ∧ keys.Nodup
      ∧ ∀ k, k ∈ keys ↔ ∃ v, get c h k = .ok (some v) := by
  have hget : ∀ k, k ∈ h.entries.map (·.1) ↔ ∃ v, get c h k = .ok (some v) := by
    intro k
    obtain ⟨o, g1, g2⟩ := get_mem inv k
    rw [g1]
    constructor
    · intro hk
      obtain ⟨⟨a, v⟩, hm, hb⟩ := List.mem_map.1 hk
      have hb : a = k := hb
      subst hb
      exact ⟨v, by rw [(g2 v).2 hm]⟩
    · rintro ⟨v, hv⟩
      injection hv with hv
      exact List.mem_map.2 ⟨_, (g2 v).1 hv, rfl⟩
  have hf := firstIn_eq max h.table
  change firstIn max h.table = headKey max h.entries at hf
  cases he : h.entries with
  | nil =>
    rw [he] at hf
    refine ⟨.last, [], hf, by unfold visit; rfl, List.nodup_nil, fun k => ?_⟩
    rw [← hget, he]
    rfl
  | cons e Q =>
    rw [he] at hf
    have hle : e.1.length ≤ max := hmax e (by rw [he]; simp)
    simp only [headKey, if_neg (Nat.not_lt.2 hle)] at hf
    refine ⟨.key e.1, (e :: Q).map (·.1), hf, ?_, ?_, fun k => ?_⟩
    · rw [List.length_cons]
      exact visit_eq inv hmax Q [] e he
    · rw [← he]
      exact inv.once
    · rw [← he]
      exact hget k

example : ∃ h : MHash Nat, Inv 7 h ∧ ([1], 3) ∈ h.entries ∧ ([2], 4) ∈ h.entries := by
  obtain ⟨h, _, i, he, _⟩ := create_ok (ν := Nat) 7 (bits := 8) (by decide) (by decide)
  obtain ⟨h1, _, i1, q1, _⟩ := put_ok i (k := [1]) (by simp [he]) 3
  obtain ⟨h2, _, i2, q2, _⟩ := put_ok i1 (k := [2]) (by intro w; rw [q1.mem_iff, he]; simp) 4
  refine ⟨h2, i2, ?_, ?_⟩
  · rw [q2.mem_iff]; simp [q1.mem_iff]
  · rw [q2.mem_iff]; simp

/-! ## Findings -/

/-- After the table has grown, the count is no longer the number of entries: each is counted
again. -/
theorem count_wrong : ∃ h h' : MHash Nat, Inv 7 h ∧ h.count = h.entries.length ∧ autogrow 7 h = .ok (true, h')
    ∧ h'.entries.length = 1 ∧ h'.count = 2 := by
  obtain ⟨h, _, i, he, hb, hn⟩ := create_ok (ν := Nat) 7 (bits := 3) (by decide) (by decide)
  obtain ⟨h1, _, i1, q1, b1, n1⟩ := put_ok i (k := [1]) (by simp [he]) 3
  have hlen : h1.entries.length = 1 := by rw [q1.length_eq, he]; rfl
  obtain ⟨h2, r, _, q2, _, n2⟩ := resize_ok i1 (bits := 4) (by decide) (by decide)
  refine ⟨h1, h2, i1, by rw [n1, hn, hlen], ?_, by rw [q2.length_eq, hlen], by rw [n2, n1, hn, hlen]⟩
  unfold autogrow
  rw [b1, hb, if_neg (by omega), if_pos (by omega)]
  simp only [r, Res.ok_bind]

/-- With a table of 2^25 chains or more the hash of a key can overflow. -/
theorem hash_overflow : hashOf 7 25 [0, 0, 0, 0, 0, 0, 0, 255] = .ub := by
  decide +kernel

end Hash
end Mara
