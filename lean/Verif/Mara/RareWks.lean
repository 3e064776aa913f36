import Verif.Mara.RareProps

/-!
# Lemmas and properties: the data of WKS records
-/

namespace Mara
namespace Csv2

open Dw (Res)
open Spec.ZoneText Spec.Rare

/-! ## The address -/

theorem ddipToIp_stream (t : List UInt8) : ∀ (n : Nat) (off : Option Nat) (ip d : List UInt8) (s s' : Stream),
    ddipToIp t n off ip s = .ok (some d, s') → s' = s ∧ ∀ s2, ddipToIp t n off ip s2 = .ok (some d, s2)
  | 0, off, ip, d, s, s', h => by
    rw [ddipToIp] at h
    cases off with
    | none =>
      simp only [Option.isSome_none, Bool.false_eq_true, if_false, pure_run] at h
      injection h with h; injection h with h1 h2; injection h1 with h1
      subst h1 h2
      exact ⟨rfl, fun _ => rfl⟩
    | some o =>
      simp only [Option.isSome_some, if_true] at h
      exact absurd h (by intro hh; cases hh)
  | n + 1, none, ip, d, s, s', h => by
    rw [ddipToIp] at h
    obtain ⟨h1, h2⟩ := ddipToIp_stream t n _ _ d s s' h
    exact ⟨h1, fun s2 => by rw [ddipToIp]; exact h2 s2⟩
  | n + 1, some off, ip, d, s, s', h => by
    rw [ddipToIp] at h
    cases hv : (if off ≥ t.length then some 0 else atoi (t.drop off) 0) with
    | none => rw [hv] at h; exact absurd h (by intro hh; cases hh)
    | some v =>
      rw [hv] at h
      simp only at h
      by_cases hb : v > 255
      · rw [if_pos hb] at h; exact absurd h (by intro hh; cases hh)
      · rw [if_neg hb] at h
        obtain ⟨h1, h2⟩ := ddipToIp_stream t n _ _ d s s' h
        exact ⟨h1, fun s2 => by rw [ddipToIp, hv]; simp only; rw [if_neg hb]; exact h2 s2⟩

theorem bind_inv {α β : Type} {m : P α} {f : α → P β} {d : β} {s s' : Stream} (h : (m >>= f) s = .ok (some d, s')) :
    ∃ a s1, m s = .ok (some a, s1) ∧ f a s1 = .ok (some d, s') := by
  change (match m s with | .ok (some a, s) => f a s | .ok (none, s) => .ok (none, s) | .err => .err | .ub => .ub) = _ at h
  cases hm : m s with
  | err => rw [hm] at h; cases h
  | ub => rw [hm] at h; cases h
  | ok x =>
    obtain ⟨a, s1⟩ := x
    cases a with
    | none => rw [hm] at h; cases h
    | some a => rw [hm] at h; exact ⟨a, s1, rfl, h⟩

/-! ## The ports -/

theorem port_digits {s : Stream} (h : Plain s) (ps : List Nat) (c' : UInt8) (t' : List UInt8) (hc' : Rd c') :
    ∀ (l : List UInt8) (n num : Nat) (c : UInt8) (t : List UInt8), l ++ c' :: t' = c :: t →
      (∀ x ∈ l, isDigit x = true) → l.foldl (fun v c => v * 10 + (c.toNat - 48)) num ≤ 100000 →
      portLoop false (n + l.length) c.toNat num ps (s.here c t) =
        portLoop false n c'.toNat (l.foldl (fun v c => v * 10 + (c.toNat - 48)) num) ps (s.here c' t')
  | [], n, num, c, t, heq, _, _ => by
    simp only [List.nil_append, List.cons.injEq] at heq
    obtain ⟨rfl, rfl⟩ := heq
    rfl
  | x :: l, n, num, c, t, heq, hd, hs => by
    simp only [List.cons_append, List.cons.injEq] at heq
    obtain ⟨rfl, rfl⟩ := heq
    have hx := hd x (by simp)
    obtain ⟨c2, t2, e2, hr2⟩ : ∃ c2 t2, l ++ c' :: t' = c2 :: t2 ∧ Rd c2 := by
      cases l with
      | nil => exact ⟨c', t', rfl, hc'⟩
      | cons y l => exact ⟨y, l ++ c' :: t', rfl, rd_digit (hd y (by simp))⟩
    simp only [List.foldl_cons] at hs ⊢
    have hb := value_ge l (num * 10 + (x.toNat - 48))
    have ih := port_digits h ps c' t' hc' l n (num * 10 + (x.toNat - 48)) c2 t2 e2 (fun y hy => hd y (by simp [hy])) hs
    obtain ⟨n1, n2, n3, n4, n5⟩ := digit_not hx
    have e3 : ((x.toNat : Int) - 48).toNat = x.toNat - 48 := by rw [digit_sub hx]; rfl
    rw [List.length_cons, ← Nat.add_assoc, portLoop, if_neg (by simp [n1, n2, n3]), if_neg (by simp [n4]), if_neg (by simp),
      if_neg (by simp), if_pos (digit_facts x hx).1]
    simp only [e3]
    rw [if_neg (by omega), e2, bind_ok (read_rd h x c2 t2 hr2)]
    exact ih

theorem ports_run {s : Stream} (h : Plain s) (e : UInt8) (he : e = 10 ∨ e = 13) (r : List UInt8) (z : List UInt8)
    (hz : ∀ c ∈ z, isDigit c = true) (hzv : value z ≤ 1023) (hzn : z ≠ []) :
    ∀ (qs : List Port) (n : Nat) (ps : List Nat) (c : UInt8) (t : List UInt8),
      qs.flatMap Port.text ++ (z ++ e :: r) = c :: t → (∀ q ∈ qs, q.Ok) → ps.length + qs.length ≤ 10 →
      (qs.flatMap Port.text).length + z.length < n →
      portLoop false n c.toNat 0 ps (s.here c t) =
        .ok (some (ps ++ qs.map (fun q => value q.digits), value z), s.here e r)
  | [], n, ps, c, t, heq, _, _, hn => by
    have hre : Rd e := by rcases he with rfl | rfl <;> unfold Rd <;> decide
    have hnl : ((e.toNat : Int) = -2 ∨ (e.toNat : Int) = 10 ∨ (e.toNat : Int) = 13) := by
      rcases he with rfl | rfl <;> decide
    obtain ⟨k, rfl⟩ : ∃ k, n = (k + 1) + z.length := ⟨n - z.length - 1, by simp at hn; omega⟩
    have := port_digits h ps e r hre z (k + 1) 0 c t heq hz (show value z ≤ 100000 by omega)
    rw [this, portLoop, if_pos ⟨rfl, hnl⟩]
    simp [pure_run, value]
  | q :: qs, n, ps, c, t, heq, hq, h3, hn => by
    have hqo := hq q (by simp)
    have heq' : q.digits ++ q.sep :: (qs.flatMap Port.text ++ (z ++ e :: r)) = c :: t := by
      rw [← heq]; simp [Port.text]
    have hlen : ((q :: qs).flatMap Port.text).length = q.digits.length + 1 + (qs.flatMap Port.text).length := by
      simp [Port.text]; omega
    rw [hlen] at hn
    have hrs : Rd q.sep := by rcases hqo.sep with hh | hh | hh <;> rw [hh] <;> unfold Rd <;> decide
    have hsm := hqo.small
    obtain ⟨k, rfl⟩ : ∃ k, n = (k + 1) + q.digits.length := ⟨n - q.digits.length - 1, by omega⟩
    have := port_digits h ps q.sep _ hrs q.digits (k + 1) 0 c t heq' hqo.digits (show value q.digits ≤ 100000 by omega)
    have hnot : ¬ ((q.sep.toNat : Int) = -2 ∨ (q.sep.toNat : Int) = 10 ∨ (q.sep.toNat : Int) = 13) ∧ (q.sep.toNat : Int) ≠ 35 ∧
        isNumber q.sep.toNat = false ∧ isWks q.sep.toNat = true := by
      rcases hqo.sep with hh | hh | hh <;> rw [hh] <;> decide
    obtain ⟨c2, t2, e2, hr2⟩ : ∃ c2 t2, qs.flatMap Port.text ++ (z ++ e :: r) = c2 :: t2 ∧ Rd c2 := by
      cases qs with
      | nil =>
        obtain ⟨x, w, rfl⟩ := List.exists_cons_of_ne_nil hzn
        exact ⟨x, _, rfl, rd_digit (hz x (by simp))⟩
      | cons y l =>
        have hyo := hq y (by simp)
        obtain ⟨x, w, hw⟩ := List.exists_cons_of_ne_nil hyo.some
        refine ⟨x, w ++ [y.sep] ++ (l.flatMap Port.text ++ (z ++ e :: r)), by simp [Port.text, hw], rd_digit (hyo.digits x (by simp [hw]))⟩
    have ih := ports_run h e he r z hz hzv hzn qs k (ps ++ [value q.digits]) c2 t2 e2 (fun y hy => hq y (by simp [hy]))
      (by simp at h3 ⊢; omega) (by omega)
    rw [show q.digits.foldl (fun v c => v * 10 + (c.toNat - 48)) 0 = value q.digits from rfl] at this
    rw [this, portLoop, if_neg (fun hh => hnot.1 hh.2), if_neg (fun hh => hnot.2.1 hh.2), if_neg (by simp), if_neg (by simp),
      if_neg (by rw [hnot.2.2.1]; decide), if_pos (Or.inl hnot.2.2.2), if_neg (by simp at h3; omega),
      if_neg (show ¬ (value q.digits > 1024) by omega), e2, bind_ok (read_rd h q.sep c2 t2 hr2), ih]
    simp

/-! ## The bitmap -/

/-- A bit of a bitmap before it is made bytes. -/
def bitN (m : List Nat) (p : Nat) : Bool := (m.getD (p / 8) 0).testBit (7 - p % 8)

theorem setPort_ok (len : Nat) (m : List Nat) (p : Nat) (h1 : p / 8 < len) (h2 : p / 8 < m.length) (hm : ∀ x ∈ m, x < 256) :
    ∃ m', setPort len m p = some m' ∧ m'.length = m.length ∧ (∀ x ∈ m', x < 256) ∧
      ∀ q, bitN m' q = (bitN m q || decide (q = p)) := by
  refine ⟨m.set (p / 8) (m[p / 8] ||| 2 ^ (7 - p % 8)), ?_, by simp, ?_, ?_⟩
  · rw [setPort, if_neg (by omega), dif_pos h2]
  · intro x hx
    rcases List.mem_or_eq_of_mem_set hx with hx | rfl
    · exact hm x hx
    · have h3 : 2 ^ (7 - p % 8) < 2 ^ 8 := Nat.pow_lt_pow_right (by decide) (by omega)
      exact Nat.or_lt_two_pow (n := 8) (hm _ (List.getElem_mem h2)) h3
  · intro q
    rw [bitN, bitN, List.getD_eq_getElem?_getD, List.getD_eq_getElem?_getD, List.getElem?_set]
    by_cases hq : p / 8 = q / 8
    · rw [if_pos hq, if_pos h2, Option.getD_some, Nat.testBit_or, Nat.testBit_two_pow, ← hq, List.getElem?_eq_getElem h2, Option.getD_some]
      congr 1
      rw [decide_eq_decide]
      omega
    · rw [if_neg hq, decide_eq_false (show ¬ q = p from fun hh => hq (by rw [hh])), Bool.or_false]

theorem setPorts_ok (len : Nat) : ∀ (ps : List Nat) (m : List Nat), (∀ p ∈ ps, p / 8 < len ∧ p / 8 < m.length) → (∀ x ∈ m, x < 256) →
    ∃ m', ps.foldlM (setPort len) m = some m' ∧ m'.length = m.length ∧ (∀ x ∈ m', x < 256) ∧
      ∀ q, bitN m' q = (bitN m q || decide (q ∈ ps))
  | [], m, _, hm => ⟨m, rfl, rfl, hm, by simp⟩
  | p :: ps, m, hp, hm => by
    obtain ⟨h1, h2⟩ := hp p (by simp)
    obtain ⟨m1, e1, l1, s1, b1⟩ := setPort_ok len m p h1 h2 hm
    obtain ⟨m2, e2, l2, s2, b2⟩ := setPorts_ok len ps m1 (fun y hy => by rw [l1]; exact hp y (by simp [hy])) s1
    refine ⟨m2, ?_, by omega, s2, fun q => ?_⟩
    · rw [List.foldlM_cons, e1]; exact e2
    · rw [b2, b1, Bool.or_assoc]
      congr 1
      rw [← Bool.decide_or, decide_eq_decide, List.mem_cons]

theorem foldl_max (l : List Nat) : ∀ a, a ≤ l.foldl max a ∧ ∀ x ∈ l, x ≤ l.foldl max a := by
  induction l with
  | nil => intro a; simp
  | cons y l ih =>
    intro a
    obtain ⟨h1, h2⟩ := ih (max a y)
    rw [List.foldl_cons]
    refine ⟨by omega, fun x hx => ?_⟩
    rcases List.mem_cons.mp hx with rfl | hx
    · omega
    · exact h2 x hx

theorem portBits_run {s : Stream} (ps : List Nat) (z : Nat) (hz : 0 < z ∧ z < 1024) (hl : ps.length < 10) :
    ∃ bits, portBits ps z s = .ok (some bits, s) ∧ ((∀ p ∈ ps, p / 8 < bits.length) ∧ z / 8 < bits.length) ∧
      ∀ q, hasPort bits q = decide (q ∈ ps) := by
  obtain ⟨-, hmax⟩ := foldl_max (ps ++ [z]) 0
  have hd : decide (z > 0 ∧ z < 1024) = true := by simp; omega
  obtain ⟨m, e1, l1, s1, b1⟩ := setPorts_ok ((ps ++ [z]).foldl max 0 / 8 + 6) ps (List.replicate ((ps ++ [z]).foldl max 0 / 8 + 1) 0)
    (fun p hp => by
      have := hmax p (by simp [hp])
      rw [List.length_replicate]; omega)
    (fun x hx => by rw [List.eq_of_mem_replicate hx]; omega)
  rw [List.length_replicate] at l1
  refine ⟨m.map UInt8.ofNat, ?_, ⟨fun p hp => ?_, ?_⟩, fun q => ?_⟩
  · rw [portBits]
    simp only [hd]
    rw [if_neg (by omega)]
    simp only [if_true]
    rw [e1]
    rfl
  · have := hmax p (by simp [hp])
    rw [List.length_map, l1]; omega
  · have := hmax z (by simp)
    rw [List.length_map, l1]; omega
  · have hz0 : bitN (List.replicate ((ps ++ [z]).foldl max 0 / 8 + 1) 0) q = false := by
      rw [bitN, List.getD_eq_getElem?_getD, List.getElem?_replicate]
      split <;> simp
    have hb := b1 q
    rw [hz0, Bool.false_or] at hb
    rw [← hb, hasPort, bitN, List.getD_eq_getElem?_getD, List.getD_eq_getElem?_getD, List.getElem?_map]
    cases hg : m[q / 8]? with
    | none => simp
    | some x =>
      have hx := s1 x (List.mem_of_getElem? hg)
      simp only [Option.map_some, Option.getD_some]
      rw [UInt8.toNat_ofNat', Nat.mod_eq_of_lt hx]

/-! ## The record -/

/-- **The last port of a WKS record is lost.**  Whatever address, protocol and ports a WKS record
is written with, the parser accepts it; the address and the protocol in its data are the ones that
are written, and the ports are all but the last one. -/
theorem wks_exact_partial {s : Stream} (h : Plain s) (hm : s.mode ≠ 103) (g : Gap) (hg : g.Ok) (i : Ip4) (hi : i.Ok)
    (g1 : Gap) (hg1 : g1.Ok) (prot : List UInt8) (hp : NumOk prot) (g2 : Gap) (hg2 : g2.Ok)
    (qs : List Port) (hq : ∀ q ∈ qs, q.Ok) (hn : qs.length < 10) (z : List UInt8) (hz : ∀ c ∈ z, isDigit c = true) (hzn : z ≠ [])
    (hzv : 0 < value z ∧ value z < 1024) (hlen : (qs.flatMap Port.text).length + z.length < 1000)
    (e : UInt8) (he : e = 10 ∨ e = 13) (r : List UInt8) :
    ∃ bits, getWks (s.here (last g.first) (pieces g.rest ++ (i.text ++ (g1.text ++ (prot ++ (g2.text ++
          (qs.flatMap Port.text ++ (z ++ e :: r)))))))) =
        .ok (some (i.data ++ UInt8.ofNat (value prot) :: bits), s.here e r) ∧
      (∀ p, hasPort bits p = true ↔ p ∈ qs.map (fun q => value q.digits)) := by
  obtain ⟨c, t, ht⟩ : ∃ c t, i.text = c :: t := by
    obtain ⟨_, hall⟩ := hi
    obtain ⟨a1, _, _⟩ := hall i.a (by simp)
    obtain ⟨x, w, hw⟩ := List.exists_cons_of_ne_nil a1
    exact ⟨x, _, by rw [Ip4.text, hw]; rfl⟩
  have hc : isDigit c = true := by
    obtain ⟨_, hall⟩ := hi
    obtain ⟨a1, a2, _⟩ := hall i.a (by simp)
    obtain ⟨x, w, hw⟩ := List.exists_cons_of_ne_nil a1
    rw [Ip4.text, hw] at ht
    simp only [List.cons_append, List.cons.injEq] at ht
    rw [← ht.1]
    exact a2 x (by simp [hw])
  obtain ⟨x, w, hx, ew⟩ : ∃ x w, isDigit x = true ∧ qs.flatMap Port.text ++ (z ++ e :: r) = x :: w := by
    cases hqs : qs with
    | nil =>
      obtain ⟨x, w, rfl⟩ := List.exists_cons_of_ne_nil hzn
      exact ⟨x, _, hz x (by simp), rfl⟩
    | cons y l =>
      have hyo := hq y (by simp [hqs])
      obtain ⟨x, w, hw⟩ := List.exists_cons_of_ne_nil hyo.some
      exact ⟨x, w ++ [y.sep] ++ (l.flatMap Port.text ++ (z ++ e :: r)), hyo.digits x (by simp [hw]), by simp [Port.text, hw]⟩
  have et : pieces g.rest ++ (i.text ++ (g1.text ++ (prot ++ (g2.text ++ (qs.flatMap Port.text ++ (z ++ e :: r)))))) =
      pieces g.rest ++ c :: (t ++ (g1.first.text ++ (pieces g1.rest ++ (prot ++ (g2.first.text ++ (pieces g2.rest ++ x :: w)))))) := by
    rw [ht, ew]; simp [Gap.text]
  have q1 := get1st_gap h skips_number g hg c (digit_facts c hc).1 (digit_facts c hc).2.1
    (t ++ (g1.first.text ++ (pieces g1.rest ++ (prot ++ (g2.first.text ++ (pieces g2.rest ++ x :: w))))))
  have ga := getA_of h i hi g1.first hg1.first c t _ ht q1
  rw [getA, bind_ok q1, if_neg (by decide)] at ga
  obtain ⟨o, s1, k1, ga⟩ := bind_inv ga
  obtain ⟨txt, s2, k2, ga⟩ := bind_inv ga
  obtain ⟨rfl, hip⟩ := ddipToIp_stream _ _ _ _ _ _ _ ga
  have q2 := getNum_run h g1 hg1 prot hp g2.first hg2.first (pieces g2.rest ++ x :: w)
  have q3 := get1st_gap h skips_number g2 hg2 x (digit_facts x hx).1 (digit_facts x hx).2.1 w
  have hmode : (s.here x w).mode = s.mode := rfl
  have hat : allowTilde (s.here x w) = .ok (some (), s.here x w) := by
    show Res.ok (some (), if (s.here x w).mode = 103 then _ else _) = _
    rw [if_neg (by rw [hmode]; exact hm)]
  have q4 := ports_run h e he r z hz (by omega) hzn qs 1000 [] x w ew hq (by simp; omega) hlen
  obtain ⟨bits, q5, -, q6⟩ := portBits_run (s := s.here e r) (qs.map fun q => value q.digits) (value z) hzv (by simpa using hn)
  refine ⟨bits, ?_, fun p => by rw [q6]; simp⟩
  rw [et, getWks, bind_ok q1, if_neg (by decide), bind_ok k1, bind_ok k2, bind_ok q2, if_neg (by omega), bind_ok q3,
    if_neg (by decide), bind_ok hat, bind_get, hmode, decide_eq_false hm, just_here h, bind_ok q4]
  simp only [List.nil_append]
  rw [bind_ok (hip _), bind_ok q5, pure_run]
  simp

end Csv2
end Mara
