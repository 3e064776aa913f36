import Verif.Co.Ip6Lemmas
/-!
# coLunacyDNS: IPv6 addresses

An address that the script writes with colons as RFC 4291 2.2 has it, or as 32 digits, is the address clients get; the form
the server itself uses is one of these.
-/

namespace Co
open Spec.ZoneText (Ip6)

theorem join_len (l : List (List UInt8)) (hl : ∀ g ∈ l, Ip6.GroupOk g) : (Ip6.join l).length ≤ 5 * l.length := by
  induction l with
  | nil => simp [Ip6.join]
  | cons g l ih =>
    have h1 := (hl g (by simp)).2.1
    have h2 := ih fun x hx => hl x (by simp [hx])
    by_cases h : l = []
    · subst h; simp only [Ip6.join, List.length_cons, List.length_nil]; omega
    · rw [join_cons h]; simp only [List.length_append, List.length_cons]; omega

theorem acc_start : (⟨0, 0, 0, 0, 0, List.replicate 16 0⟩ : Acc) = acc [] 0 0 0 0 := rfl

theorem parse_of {human : List UInt8} {s : Seen} {r : Acc} (e1 : pass1 human ⟨0, none, 1, 0, 0⟩ = some s)
    (h1 : s.last = 58 → s.double = some (s.index - 1)) (h2 : s.index < 100) (e2 : pass2 s human 0 (acc [] 0 0 0 0) = some r)
    (h3 : s.colons = 0 → r.hex = 32) (h4 : s.colons ≠ 0 → r.quads = 8) : ip6Parse human = some r.ip := by
  unfold ip6Parse
  simp only [e1, acc_start, e2]
  rw [if_neg (by simp only [ne_eq, not_and, Decidable.not_not]; exact h1), if_neg (by omega), if_neg (by simp only [ne_eq, not_and, Decidable.not_not]; exact h3),
    if_neg (by simp only [ne_eq, not_and, Decidable.not_not]; exact h4)]

/-- Eight groups. -/
theorem parse_full (l : List (List UInt8)) (h8 : l.length = 8) (hl : ∀ g ∈ l, Ip6.GroupOk g) :
    ip6Parse (Ip6.join l) = some (l.flatMap Ip6.group) := by
  have ln : l ≠ [] := by rintro rfl; simp at h8
  have jl := join_len l hl
  obtain ⟨k, hk, e⟩ := p1_join l [] ⟨0, none, 1, 0, 0⟩ hl ln (by simp; omega)
  rw [List.append_nil] at e
  obtain ⟨d, n, e2⟩ := p2_groups ⟨k, none, 1, 0 + (l.length - 1), 0 + (Ip6.join l).length⟩ l 0 [] 0 0 hl ln (by simp; omega) (by simp; omega) (by simp)
  have gl := group_len l
  have := parse_of e (fun h => absurd h hk) (by simp; omega) e2 (by simp; omega) (by simp [acc]; omega)
  rw [this]
  simp only [acc, List.nil_append, gl, h8]
  simp

/-- The two colons. -/
theorem p2_double (seen : Seen) (tail : List UInt8) (i : Nat) (w : List UInt8) (n h : Nat)
    (hd : seen.double = some i) (hn : n + seen.after < 8) (hw : w.length ≤ (8 - seen.after) * 2) :
    pass2 seen (58 :: tail) i (acc w 0 0 n h) =
      (endGroup false tail.isEmpty (acc (w ++ List.replicate ((8 - seen.after) * 2 - w.length) 0) 0 0 (8 - seen.after) h)).bind
        (pass2 seen tail (i + 1)) := by
  have dc : digit seen.colons 58 = none := by unfold digit; simp
  have ea : (⟨0, 0, (8 - seen.after) * 2, 8 - seen.after, h, w ++ List.replicate (16 - w.length) 0⟩ : Acc) =
      acc (w ++ List.replicate ((8 - seen.after) * 2 - w.length) 0) 0 0 (8 - seen.after) h := by
    unfold acc
    have : (w ++ List.replicate ((8 - seen.after) * 2 - w.length) (0 : UInt8)).length = (8 - seen.after) * 2 := by simp; omega
    rw [this, List.append_assoc, List.replicate_append_replicate]
    congr 3
    omega
  have tc : takeColon seen i (acc w 0 0 n h) = some (acc (w ++ List.replicate ((8 - seen.after) * 2 - w.length) 0) 0 0 (8 - seen.after) h) := by
    unfold takeColon
    rw [if_pos hd, if_neg (by simp [acc]), if_neg (by simp only [acc]; omega), ← ea]
    rfl
  rw [pass2]
  simp only [dc, if_true]
  rw [tc]
  rfl

/-- Some groups, two colons, some groups. -/
theorem parse_short (l r : List (List UInt8)) (h7 : l.length + r.length ≤ 7) (h6 : r = [] → l.length ≤ 6)
    (hl : ∀ g ∈ l, Ip6.GroupOk g) (hr : ∀ g ∈ r, Ip6.GroupOk g) :
    ip6Parse (Ip6.text (.short l r)) = some (Ip6.data (.short l r)) := by
  have jl := join_len l hl
  have jr := join_len r hr
  have gl := group_len l
  have gr := group_len r
  -- the first pass up to the second colon
  have e1 : ∀ rest, ∃ c, c ≠ 0 ∧ pass1 (Ip6.join l ++ 58 :: 58 :: rest) ⟨0, none, 1, 0, 0⟩ =
      pass1 rest ⟨58, some ((Ip6.join l).length + 1), 1, c, (Ip6.join l).length + 2⟩ := by
    intro rest
    have fin : ∀ (k : UInt8) (n c : Nat), k ≠ 58 → n + 1 < 100 → pass1 (58 :: 58 :: rest) ⟨k, none, 1, c, n⟩ =
        pass1 rest ⟨58, some (n + 1), 1, c + 2, n + 2⟩ := by
      intro k n c hk hn
      rw [p1_colon _ _ hk (by simp; omega)]
      simp [pass1, hn]
    by_cases ln : l = []
    · subst ln
      exact ⟨2, by omega, fin 0 0 0 (by decide) (by omega)⟩
    · obtain ⟨k, hk, e⟩ := p1_join l (58 :: 58 :: rest) ⟨0, none, 1, 0, 0⟩ hl ln (by simp; omega)
      rw [e]
      refine ⟨0 + (l.length - 1) + 2, by omega, ?_⟩
      simp only [ne_eq, not_true, if_false]
      rw [fin k _ _ hk (by omega)]
      congr 2 <;> simp
  -- the second one
  have e2 : ∀ (seen : Seen) (rest : List UInt8), seen.colons ≠ 0 → seen.double = some ((Ip6.join l).length + 1) →
      ∃ h, pass2 seen (Ip6.join l ++ 58 :: 58 :: rest) 0 (acc [] 0 0 0 0) =
        pass2 seen (58 :: rest) ((Ip6.join l).length + 1) (acc (l.flatMap Ip6.group) 0 0 l.length h) := by
    intro seen rest hc hd
    by_cases ln : l = []
    · subst ln
      refine ⟨0, ?_⟩
      simp only [Ip6.join, List.nil_append, List.length_nil] at hd ⊢
      rw [p2_colon _ _ (by rw [hd]; simp)]
      simp only [List.isEmpty_cons, if_false, ne_eq, not_true]
      rw [if_neg (by omega), end_skip (by simp)]
      rfl
    · obtain ⟨h, e⟩ := p2_groups_colon seen l (58 :: rest) 0 [] 0 0 hl ln hc (by simp; omega) (by simp)
        (fun j hj => by rw [hd] at hj; simp at hj; omega)
      exact ⟨h, by simpa using e⟩
  simp only [Ip6.text, Ip6.data]
  by_cases rn : r = []
  · subst rn
    simp only [Ip6.join, List.append_nil, List.flatMap_nil, List.length_nil, Nat.add_zero, List.append_assoc, List.cons_append, List.nil_append]
    obtain ⟨c, hc, f1⟩ := e1 []
    obtain ⟨h, f2⟩ := e2 ⟨58, some ((Ip6.join l).length + 1), 1, c, (Ip6.join l).length + 2⟩ [] hc rfl
    have h6 := h6 rfl
    rw [p2_double _ _ _ _ _ _ rfl (by simp only; omega) (by simp only; omega)] at f2
    rw [end_write (lst := ([] : List UInt8).isEmpty) (by simp [-List.length_flatMap]; omega) (by simp)] at f2
    simp only [Option.bind_some, pass2] at f2
    have := parse_of f1 (by simp) (by simp only; omega) f2 (fun h => absurd h hc) (by simp [acc])
    rw [this]
    have z : pair 0 = List.replicate 2 0 := rfl
    simp only [acc, z, List.append_assoc, List.replicate_append_replicate, gl]
    congr 3
    simp [-List.length_flatMap, gl]
    omega
  · simp only [List.append_assoc, List.cons_append, List.nil_append]
    obtain ⟨c, hc, f1⟩ := e1 (Ip6.join r)
    obtain ⟨k, hk, e3⟩ := p1_join r [] ⟨58, some ((Ip6.join l).length + 1), 1, c, (Ip6.join l).length + 2⟩ hr rn (by simp; omega)
    rw [List.append_nil] at e3
    rw [e3] at f1
    have r1 : 1 ≤ r.length := by cases r <;> simp_all
    simp only [pass1, ne_eq, reduceCtorEq, not_false_iff, if_true] at f1
    rw [show 1 + (r.length - 1) = r.length by omega] at f1
    obtain ⟨h, e⟩ := e2 ⟨k, some ((Ip6.join l).length + 1), r.length, c + (r.length - 1), (Ip6.join l).length + 2 + (Ip6.join r).length⟩
      (Ip6.join r) (by simp; omega) rfl
    rw [p2_double _ _ _ _ _ _ rfl (by simp only; omega) (by simp only; omega)] at e
    have ne : (Ip6.join r).isEmpty = false := by have := join_ne hr rn; cases h : Ip6.join r <;> simp_all
    rw [ne, end_skip (by simp), Option.bind_some] at e
    obtain ⟨d, n, e4⟩ := p2_groups ⟨k, some ((Ip6.join l).length + 1), r.length, c + (r.length - 1), (Ip6.join l).length + 2 + (Ip6.join r).length⟩
      r ((Ip6.join l).length + 1 + 1) (l.flatMap Ip6.group ++ List.replicate ((8 - r.length) * 2 - (l.flatMap Ip6.group).length) 0) (8 - r.length) h
      hr rn (by simp only; omega) (by simp [-List.length_flatMap]; omega) (by intro j hj; simp at hj; omega)
    rw [e4] at e
    rw [parse_of f1 (fun h => absurd h hk) (by simp only; omega) e (fun h => by simp only at h; omega) (fun _ => by simp only [acc]; omega)]
    have len : (l.flatMap Ip6.group ++ List.replicate ((8 - r.length) * 2 - (l.flatMap Ip6.group).length) (0 : UInt8) ++ r.flatMap Ip6.group).length = 16 := by
      simp [-List.length_flatMap]; omega
    simp only [acc]
    rw [len]
    simp only [Nat.sub_self, List.replicate_zero, List.append_nil, gl, List.append_assoc]
    rw [show (8 - r.length) * 2 - 2 * l.length = 16 - 2 * (l.length + r.length) by omega]

/-- The colon forms of RFC 4291 mean what they say, except that two colons at the end need at least two groups to
stand for. -/
theorem colon_text_is_read (t : Ip6) (h : t.Ok) (ht : ∀ l, t ≠ .trail l) (h7 : ∀ l, t = .short l [] → l.length ≤ 6) :
    ip6Parse t.text = some t.data := by
  cases t with
  | full l => exact parse_full l h.1 h.2
  | trail l => exact absurd rfl (ht l)
  | short l r => exact parse_short l r h.1 (fun e => h7 l (by rw [e])) h.2.1 h.2.2

/-- "2001:db8::c0:5". -/
example : ip6Parse [50, 48, 48, 49, 58, 100, 98, 56, 58, 58, 99, 48, 58, 53] = some [32, 1, 13, 184, 0, 0, 0, 0, 0, 0, 0, 0, 0, 192, 0, 5] :=
  colon_text_is_read (.short [[50, 48, 48, 49], [100, 98, 56]] [[99, 48], [53]])
    ⟨by decide, by unfold Ip6.GroupOk; decide, by unfold Ip6.GroupOk; decide⟩ (by simp) (by simp)

/-- "1:2:3:4:5:6:7::" is a legal text for an address, but not for the server. -/
theorem seven_groups_refused :
    Ip6.Ok (.short [[49], [50], [51], [52], [53], [54], [55]] []) ∧
      ip6Parse (Ip6.text (.short [[49], [50], [51], [52], [53], [54], [55]] [])) = none :=
  ⟨⟨by decide, by unfold Ip6.GroupOk; decide, by unfold Ip6.GroupOk; decide⟩, by decide⟩

/-- 32 digits with dashes and spaces between them (the last character is a digit). -/
theorem digits_are_read (text addr : List UInt8) (h : Spec.Ip6Text text addr) (hl : ∀ c, text.getLast? = some c → Spec.isSep c = false) :
    ip6Parse text = some addr := by
  obtain ⟨h1, h2, ds, hd, hn, rfl⟩ := h
  have nc : ∀ c ∈ text, c ≠ 58 := by
    intro c hc h58
    subst h58
    have : (58 : UInt8) ∈ text.filter fun c => !Spec.isSep c := by simp [hc, Spec.isSep]
    have : Spec.hexVal 58 ∈ (text.filter fun c => !Spec.isSep c).map Spec.hexVal := List.mem_map_of_mem this
    rw [hd] at this
    simp [Spec.hexVal] at this
  obtain ⟨k, hk, e⟩ := p1_plain text [] ⟨0, none, 1, 0, 0⟩ nc (.inl (by decide)) (by simp; omega)
  rw [List.append_nil] at e
  obtain ⟨r, e2, e3, e4⟩ := p2_plain ⟨k, none, 1, 0, 0 + text.length⟩ text 0 [] [] ds rfl rfl (by simp) (by simp) (by simp; omega)
    (by rintro rfl; simp at hn) hd hl
  rw [parse_of e (fun h => absurd h hk) (by simp; omega) e2 (fun _ => e3) (fun h => absurd rfl h), e4]
  rfl

/-- "2001-0db8-0000-0000 0000-0000-0000-00_5". -/
example : ip6Parse [50, 48, 48, 49, 45, 48, 100, 98, 56, 45, 48, 48, 48, 48, 45, 48, 48, 48, 48, 32, 48, 48, 48, 48, 45, 48, 48, 48, 48, 45,
    48, 48, 48, 48, 45, 48, 48, 95, 53] = some [32, 1, 13, 184, 0, 0, 0, 0, 0, 0, 0, 0, 0, 0, 0, 5] :=
  digits_are_read _ _ ⟨by decide, by decide, [2, 0, 0, 1, 0, 13, 11, 8, 0, 0, 0, 0, 0, 0, 0, 0, 0, 0, 0, 0, 0, 0, 0, 0, 0, 0, 0, 0, 0, 0, 0, 5], by decide, by decide, by decide⟩
    (by decide)

theorem hexChar_val (n : Nat) (h : n < 16) : Spec.hexVal (hexChar n) = some n := by
  revert h n; decide

theorem hexChar_sep (n : Nat) (h : n < 16) : Spec.isSep (hexChar n) = false := by
  revert h n; decide

theorem byte_eq (b : UInt8) : UInt8.ofNat (b.toNat / 16) * 16 + UInt8.ofNat (b.toNat % 16) = b := by
  have e : UInt8.ofNat (b.toNat / 16 * 16 + b.toNat % 16) = b := by
    rw [show b.toNat / 16 * 16 + b.toNat % 16 = b.toNat by omega]; simp
  simpa using e

/-- What the server writes for an address (in the entry `coFromIP` of a question and in the result of `coDNS.solve`) is read as
this address. -/
theorem written_address_is_read (ip : List UInt8) (h : ip.length = 16) : ip6Parse (ip6Show ip) = some ip := by
  refine digits_are_read _ _ ⟨by simp [ip6Show, hex2], by simp [ip6Show, hex2], ip.flatMap (fun b => [b.toNat / 16, b.toNat % 16]), ?_, ?_, ?_⟩ ?_
  all_goals
    match ip, h with
    | [a0, a1, a2, a3, a4, a5, a6, a7, a8, a9, b0, b1, b2, b3, b4, b5], _ =>
      have m (b : UInt8) : b.toNat / 16 < 16 := by have := b.toNat_lt; omega
      have k (b : UInt8) : b.toNat % 16 < 16 := by omega
      simp [ip6Show, hex2, hexChar_sep, hexChar_val, m, k, show Spec.isSep 45 = true from rfl, show Spec.isSep 32 = true from rfl,
        Spec.pairUp, byte_eq]

/-- The address of the example above as the server writes it. -/
example : ip6Parse (ip6Show [32, 1, 13, 184, 0, 0, 0, 0, 0, 0, 0, 0, 0, 192, 0, 5]) = some [32, 1, 13, 184, 0, 0, 0, 0, 0, 0, 0, 0, 0, 192, 0, 5] :=
  written_address_is_read _ rfl

end Co
