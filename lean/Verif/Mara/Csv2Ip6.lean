import Verif.Mara.Csv2Fields
import Mathlib.Tactic.IntervalCases
/-!
# Lemmas: IPv6 addresses in zone files
-/

namespace Mara
namespace Csv2

open Dw (Res)
open Spec.ZoneText

theorem nybble_eq (c : UInt8) : nybble c = hexDigit c := by
  have key : ∀ n : Fin 256, nybble (UInt8.ofNat n) = hexDigit (UInt8.ofNat n) := by decide +kernel
  have := key ⟨c.toNat, c.toNat_lt⟩
  simpa only [UInt8.ofNat_toNat] using this

theorem hex_facts (c : UInt8) (h : (hexDigit c).isSome = true) : isHexOrColon c.toNat = true ∧ c.toNat < 128 ∧ c ≠ 58 ∧
    (hexDigit c).getD 0 < 16 := by
  have key : ∀ n : Fin 256, (hexDigit (UInt8.ofNat n)).isSome = true → isHexOrColon (UInt8.ofNat n).toNat = true ∧
      (UInt8.ofNat n).toNat < 128 ∧ UInt8.ofNat n ≠ 58 ∧ (hexDigit (UInt8.ofNat n)).getD 0 < 16 := by decide +kernel
  have := key ⟨c.toNat, c.toNat_lt⟩
  simp only [UInt8.ofNat_toNat] at this
  exact this h

/-- The four halves of a group. -/
def quad (g : List UInt8) : List Nat := List.replicate (4 - g.length) 0 ++ g.map fun b => (nybble b).getD 0

theorem quad_length {g : List UInt8} (h : Ip6.GroupOk g) : (quad g).length = 4 := by
  have := h.2.1
  simp [quad]
  omega

theorem setAll_run : ∀ (vs o : List Nat) (p : Nat), p + vs.length ≤ o.length →
    setAll o p vs = some (o.take p ++ vs ++ o.drop (p + vs.length))
  | [], o, p, _ => by simp [setAll]
  | v :: vs, o, p, h => by
    simp only [List.length_cons] at h
    have ih := setAll_run vs (o.set p v) (p + 1) (by simp; omega)
    rw [setAll, setNybble, if_neg (by omega), Int.toNat_natCast, Option.bind_some]
    rw [show ((p : Int) + 1) = ((p + 1 : Nat) : Int) by simp, ih]
    congr 1
    rw [List.take_set, List.drop_set_of_lt (by omega), List.length_cons]
    have : ((o.take (p + 1)).set p v) = o.take p ++ [v] := by
      rw [List.set_eq_take_append_cons_drop, if_pos (by simp; omega)]
      simp [List.take_take]
    rw [this, show p + 1 + vs.length = p + (vs.length + 1) by omega]
    simp

theorem countHere_all (p : UInt8 → Bool) (g r : List UInt8) (hg : ∀ c ∈ g, p c = true) (hr : ∀ c, r.head? = some c → p c = false) :
    countHere p (g ++ r) = g.length := by
  rw [countHere, List.takeWhile_append_of_pos hg]
  cases r with
  | nil => simp
  | cons c r => simp [List.takeWhile_cons, hr c rfl]

theorem group_hex {g : List UInt8} (h : Ip6.GroupOk g) : ∀ c ∈ g, (nybble c).isSome = true := by
  intro c hc
  rw [nybble_eq]
  exact h.2.2 c hc

theorem group_no58 {g : List UInt8} (h : Ip6.GroupOk g) : (58 : UInt8) ∉ g := by
  intro hm
  exact (hex_facts _ (h.2.2 _ hm)).2.2.1 rfl

/-- What comes after the digits of a group. -/
theorem ip6_group {g : List UInt8} (h : Ip6.GroupOk g) (n place c : Nat) (sk first : Bool) (o : List Nat) (r : List UInt8)
    (hr : r.head? = none ∨ r.head? = some 58) (hp : place + 4 ≤ 32) (ho : o.length = 32) :
    ip6Loop (n + 1) (g ++ r) place c sk first o =
      (if countHere (· == 58) r = 2 then
        (if sk then fail
        else
          let cc : Int := (r.drop 1).countP (· == 58)
          ip6Loop n (r.drop 2) (((place + 4 : Nat) : Int) + 4 * (8 - (c + 1) - cc)) (c + 1) true false
            (o.take place ++ quad g ++ o.drop (place + 4)))
      else if countHere (· == 58) r = 1 then
        ip6Loop n (r.drop 1) ((place + 4 : Nat) : Int) (c + 1) sk false (o.take place ++ quad g ++ o.drop (place + 4))
      else if r = [] then pure (o.take place ++ quad g ++ o.drop (place + 4)) else fail) := by
  have hk : countHere (fun b => (nybble b).isSome) (g ++ r) = g.length := by
    apply countHere_all _ _ _ (group_hex h)
    intro c hc
    rcases hr with hr | hr <;> rw [hr] at hc <;> simp at hc
    rw [← hc]
    decide
  obtain ⟨g1, g2, g3⟩ := h
  have hne : g ++ r ≠ [] := by
    intro h0
    simp at h0
    simp [h0.1] at g1
  have hset : setAll o place (List.replicate (4 - g.length) 0 ++ ((g ++ r).take g.length).map fun b => (nybble b).getD 0) =
      some (o.take place ++ quad g ++ o.drop (place + 4)) := by
    have := setAll_run (quad g) o place (by rw [quad_length ⟨g1, g2, g3⟩]; omega)
    rw [quad_length ⟨g1, g2, g3⟩] at this
    rw [List.take_left]
    exact this
  rw [ip6Loop, if_neg (by simp only [not_not]; exact ⟨by omega, hne⟩)]
  simp only [hk]
  rw [if_neg (by omega), if_neg (by omega), hset]
  simp only [List.drop_left]
  simp only [Bool.false_eq_true, if_false]
  rfl

theorem head_join {g : List UInt8} {gs : List (List UInt8)} (h : ∀ x ∈ g :: gs, Ip6.GroupOk x) :
    ∀ c, (Ip6.join (g :: gs)).head? = some c → c ≠ 58 := by
  intro c hc
  have hg := h g (by simp)
  obtain ⟨d, t, rfl⟩ : ∃ d t, g = d :: t := by
    cases g with
    | nil => have := hg.1; simp at this
    | cons d t => exact ⟨d, t, rfl⟩
  have : c = d := by
    cases gs <;> simp [Ip6.join] at hc <;> exact hc.symm
  subst this
  exact (hex_facts _ (hg.2.2 _ (by simp))).2.2.1

theorem colon_one {r : List UInt8} (h : ∀ c, r.head? = some c → c ≠ 58) : countHere (· == 58) (58 :: r) = 1 := by
  have := countHere_all (· == 58) [58] r (by simp) (fun c hc => by simpa using h c hc)
  simpa using this

theorem colon_two {r : List UInt8} (h : ∀ c, r.head? = some c → c ≠ 58) : countHere (· == 58) (58 :: 58 :: r) = 2 := by
  have := countHere_all (· == 58) [58, 58] r (by simp) (fun c hc => by simpa using h c hc)
  simpa using this

/-- What is set in several steps. -/
theorem splice (o q R : List Nat) (place k : Nat) (ho : o.length = 32) (hq : q.length = 4) (hp : place + 4 + k ≤ 32) :
    (o.take place ++ q ++ o.drop (place + 4)).take (place + 4) ++ R ++ (o.take place ++ q ++ o.drop (place + 4)).drop (place + 4 + k) =
      o.take place ++ (q ++ R) ++ o.drop (place + 4 + k) := by
  have l1 : (o.take place ++ q).length = place + 4 := by
    rw [List.length_append, List.length_take, hq, ho, Nat.min_eq_left (by omega)]
  rw [List.take_left' l1, List.drop_append, l1, List.drop_eq_nil_of_le (by omega), List.nil_append, List.drop_drop,
    show place + 4 + (place + 4 + k - (place + 4)) = place + 4 + k by omega]
  simp

theorem splice_length (o q : List Nat) (place : Nat) (ho : o.length = 32) (hq : q.length = 4) (hp : place + 4 ≤ 32) :
    (o.take place ++ q ++ o.drop (place + 4)).length = 32 := by
  rw [List.length_append, List.length_append, List.length_take, List.length_drop, hq, ho, Nat.min_eq_left (by omega)]
  omega

/-- Groups up to the end. -/
theorem ip6_tail : ∀ (gs : List (List UInt8)) (n place c : Nat) (sk first : Bool) (o : List Nat), gs ≠ [] → (∀ g ∈ gs, Ip6.GroupOk g) →
    place + 4 * gs.length ≤ 32 → o.length = 32 → gs.length ≤ n →
    ip6Loop n (Ip6.join gs) place c sk first o = pure (o.take place ++ gs.flatMap quad ++ o.drop (place + 4 * gs.length))
  | [], _, _, _, _, _, _, h, _, _, _, _ => absurd rfl h
  | [g], n + 1, place, c, sk, first, o, _, hg, hp, ho, _ => by
    have := ip6_group (hg g (by simp)) n place c sk first o [] (Or.inl rfl) (by simpa using hp) ho
    rw [List.append_nil] at this
    rw [Ip6.join, this]
    simp [countHere]
  | g :: g' :: gs, n + 1, place, c, sk, first, o, _, hg, hp, ho, hn => by
    have hgg := hg g (by simp)
    have hrest : ∀ x ∈ g' :: gs, Ip6.GroupOk x := fun x hx => hg x (by simp only [List.mem_cons] at hx ⊢; exact Or.inr hx)
    have := ip6_group hgg n place c sk first o (58 :: Ip6.join (g' :: gs)) (Or.inr rfl) (by simp at hp; omega) ho
    rw [colon_one (head_join hrest), if_neg (by decide), if_pos rfl] at this
    have hq := quad_length hgg
    have ih := ip6_tail (g' :: gs) n (place + 4) (c + 1) sk false (o.take place ++ quad g ++ o.drop (place + 4)) (by simp) hrest
      (by simp at hp ⊢; omega) (splice_length o _ place ho hq (by simp at hp; omega)) (by simpa using hn)
    rw [show Ip6.join (g :: g' :: gs) = g ++ 58 :: Ip6.join (g' :: gs) from rfl, this, List.drop_one, List.tail_cons, ih]
    simp only [List.length_cons] at hp ⊢
    rw [splice o (quad g) _ place (4 * (gs.length + 1)) ho hq (by omega), show (g :: g' :: gs).flatMap quad = quad g ++ (g' :: gs).flatMap quad from rfl,
      show place + 4 + 4 * (gs.length + 1) = place + 4 * (gs.length + 1 + 1) by omega]

/-- Groups up to the end, with a colon after the last one. -/
theorem ip6_trail : ∀ (gs : List (List UInt8)) (n place c : Nat) (sk first : Bool) (o : List Nat), gs ≠ [] → (∀ g ∈ gs, Ip6.GroupOk g) →
    place + 4 * gs.length ≤ 32 → o.length = 32 → gs.length < n →
    ip6Loop n (Ip6.join gs ++ [58]) place c sk first o = pure (o.take place ++ gs.flatMap quad ++ o.drop (place + 4 * gs.length))
  | [], _, _, _, _, _, _, h, _, _, _, _ => absurd rfl h
  | [g], n + 2, place, c, sk, first, o, _, hg, hp, ho, _ => by
    have := ip6_group (hg g (by simp)) (n + 1) place c sk first o [58] (Or.inr rfl) (by simpa using hp) ho
    rw [colon_one (by simp), if_neg (by decide), if_pos rfl] at this
    rw [Ip6.join, this, List.drop_one, List.tail_cons, ip6Loop, if_pos (by simp), if_pos rfl]
    simp
  | g :: g' :: gs, n + 1, place, c, sk, first, o, _, hg, hp, ho, hn => by
    have hgg := hg g (by simp)
    have hrest : ∀ x ∈ g' :: gs, Ip6.GroupOk x := fun x hx => hg x (by simp only [List.mem_cons] at hx ⊢; exact Or.inr hx)
    have hh : ∀ d, (Ip6.join (g' :: gs) ++ [58]).head? = some d → d ≠ 58 := by
      intro d hd
      apply head_join hrest
      have hne : Ip6.join (g' :: gs) ≠ [] := by
        have := (hrest g' (by simp)).1
        intro h0
        cases gs <;> simp [Ip6.join] at h0
        simp [h0] at this
      obtain ⟨a, b, hab⟩ := List.exists_cons_of_ne_nil hne
      rw [hab] at hd ⊢
      simpa using hd
    have := ip6_group hgg n place c sk first o (58 :: (Ip6.join (g' :: gs) ++ [58])) (Or.inr rfl) (by simp at hp; omega) ho
    rw [colon_one hh, if_neg (by decide), if_pos rfl] at this
    have hq := quad_length hgg
    have ih := ip6_trail (g' :: gs) n (place + 4) (c + 1) sk false (o.take place ++ quad g ++ o.drop (place + 4)) (by simp) hrest
      (by simp at hp ⊢; omega) (splice_length o _ place ho hq (by simp at hp; omega)) (by simpa using hn)
    rw [show Ip6.join (g :: g' :: gs) ++ [58] = g ++ 58 :: (Ip6.join (g' :: gs) ++ [58]) by simp [Ip6.join], this, List.drop_one, List.tail_cons, ih]
    simp only [List.length_cons] at hp ⊢
    rw [splice o (quad g) _ place (4 * (gs.length + 1)) ho hq (by omega), show (g :: g' :: gs).flatMap quad = quad g ++ (g' :: gs).flatMap quad from rfl,
      show place + 4 + 4 * (gs.length + 1) = place + 4 * (gs.length + 1 + 1) by omega]

/-- Groups up to two colons. -/
theorem ip6_lead : ∀ (gs : List (List UInt8)) (n place c : Nat) (first : Bool) (o : List Nat) (r : List UInt8), gs ≠ [] →
    (∀ g ∈ gs, Ip6.GroupOk g) → (∀ d, r.head? = some d → d ≠ 58) → place + 4 * gs.length ≤ 32 → o.length = 32 →
    ip6Loop (n + gs.length) (Ip6.join gs ++ 58 :: 58 :: r) place c false first o =
      ip6Loop n r (((place + 4 * gs.length : Nat) : Int) + 4 * (8 - ((c + gs.length : Nat) : Int) - (((r.countP (· == 58) + 1 : Nat)) : Int)))
        (c + gs.length) true false (o.take place ++ gs.flatMap quad ++ o.drop (place + 4 * gs.length))
  | [], _, _, _, _, _, _, h, _, _, _, _ => absurd rfl h
  | [g], n, place, c, first, o, r, _, hg, hr, hp, ho => by
    have := ip6_group (hg g (by simp)) n place c false first o (58 :: 58 :: r) (Or.inr rfl) (by simpa using hp) ho
    rw [colon_two hr, if_pos rfl] at this
    rw [Ip6.join, List.length_singleton, this]
    simp
  | g :: g' :: gs, n, place, c, first, o, r, _, hg, hr, hp, ho => by
    have hgg := hg g (by simp)
    have hrest : ∀ x ∈ g' :: gs, Ip6.GroupOk x := fun x hx => hg x (by simp only [List.mem_cons] at hx ⊢; exact Or.inr hx)
    have hh : ∀ d, (Ip6.join (g' :: gs) ++ 58 :: 58 :: r).head? = some d → d ≠ 58 := by
      intro d hd
      apply head_join hrest
      have hne : Ip6.join (g' :: gs) ≠ [] := by
        have := (hrest g' (by simp)).1
        intro h0
        cases gs <;> simp [Ip6.join] at h0
        simp [h0] at this
      obtain ⟨a, b, hab⟩ := List.exists_cons_of_ne_nil hne
      rw [hab] at hd ⊢
      simpa using hd
    have := ip6_group hgg (n + (g' :: gs).length) place c false first o (58 :: (Ip6.join (g' :: gs) ++ 58 :: 58 :: r)) (Or.inr rfl)
      (by simp at hp; omega) ho
    rw [colon_one hh, if_neg (by decide), if_pos rfl] at this
    have hq := quad_length hgg
    have ih := ip6_lead (g' :: gs) n (place + 4) (c + 1) false (o.take place ++ quad g ++ o.drop (place + 4)) r (by simp) hrest hr
      (by simp at hp ⊢; omega) (splice_length o _ place ho hq (by simp at hp; omega))
    rw [show Ip6.join (g :: g' :: gs) ++ 58 :: 58 :: r = g ++ 58 :: (Ip6.join (g' :: gs) ++ 58 :: 58 :: r) by simp [Ip6.join],
      show n + (g :: g' :: gs).length = n + (g' :: gs).length + 1 by simp; omega, this, List.drop_one, List.tail_cons, ih]
    simp only [List.length_cons] at hp ⊢
    rw [splice o (quad g) _ place (4 * (gs.length + 1)) ho hq (by omega), show (g :: g' :: gs).flatMap quad = quad g ++ (g' :: gs).flatMap quad from rfl,
      show place + 4 + 4 * (gs.length + 1) = place + 4 * (gs.length + 1 + 1) by omega,
      show c + 1 + (gs.length + 1) = c + (gs.length + 1 + 1) by omega]

theorem joinNybbles_quad {g : List UInt8} (h : Ip6.GroupOk g) (r : List Nat) : joinNybbles (quad g ++ r) = Ip6.group g ++ joinNybbles r := by
  obtain ⟨h1, h2, h3⟩ := h
  have key : ∀ n : Nat, UInt8.ofNat (n % 256) = UInt8.ofNat n := by
    intro n
    apply UInt8.toNat_inj.mp
    simp [UInt8.toNat_ofNat']
  match g, h1, h2, h3 with
  | [a], _, _, h3 =>
    have ha := (hex_facts a (h3 a (by simp))).2.2.2
    simp [quad, List.replicate, joinNybbles, Ip6.group, nybble_eq]
    rw [Nat.div_eq_of_lt (by omega)]
    rfl
  | [a, b], _, _, h3 =>
    have ha := (hex_facts a (h3 a (by simp))).2.2.2
    have hb := (hex_facts b (h3 b (by simp))).2.2.2
    simp [quad, List.replicate, joinNybbles, Ip6.group, nybble_eq]
    rw [Nat.div_eq_of_lt (by omega)]
    rfl
  | [a, b, c], _, _, h3 =>
    have ha := (hex_facts a (h3 a (by simp))).2.2.2
    have hb := (hex_facts b (h3 b (by simp))).2.2.2
    have hc := (hex_facts c (h3 c (by simp))).2.2.2
    simp only [quad, List.replicate, List.length_cons, List.length_nil, List.map_cons, List.map_nil, List.cons_append, List.nil_append,
      joinNybbles, Ip6.group, nybble_eq, List.foldl_cons, List.foldl_nil]
    generalize (hexDigit a).getD 0 = x at *
    generalize (hexDigit b).getD 0 = y at *
    generalize (hexDigit c).getD 0 = z at *
    congr 1
    · congr 1
      omega
    · congr 1
      rw [← key (((0 * 16 + x) * 16 + y) * 16 + z)]
      congr 1
      omega
  | [a, b, c, d], _, _, h3 =>
    have ha := (hex_facts a (h3 a (by simp))).2.2.2
    have hb := (hex_facts b (h3 b (by simp))).2.2.2
    have hc := (hex_facts c (h3 c (by simp))).2.2.2
    have hd := (hex_facts d (h3 d (by simp))).2.2.2
    simp only [quad, List.replicate, List.length_cons, List.length_nil, List.map_cons, List.map_nil, List.cons_append, List.nil_append,
      joinNybbles, Ip6.group, nybble_eq, List.foldl_cons, List.foldl_nil]
    generalize (hexDigit a).getD 0 = x at *
    generalize (hexDigit b).getD 0 = y at *
    generalize (hexDigit c).getD 0 = z at *
    generalize (hexDigit d).getD 0 = w at *
    rw [show (4 - (0 + 1 + 1 + 1 + 1)) = 0 from rfl, List.replicate_zero]
    simp only [List.nil_append, List.cons_append, joinNybbles]
    congr 1
    · congr 1
      omega
    · congr 1
      rw [← key ((((0 * 16 + x) * 16 + y) * 16 + z) * 16 + w)]
      congr 1
      omega

theorem joinNybbles_groups : ∀ (gs : List (List UInt8)) (r : List Nat), (∀ g ∈ gs, Ip6.GroupOk g) →
    joinNybbles (gs.flatMap quad ++ r) = gs.flatMap Ip6.group ++ joinNybbles r
  | [], r, _ => by simp
  | g :: gs, r, h => by
    rw [List.flatMap_cons, List.append_assoc, joinNybbles_quad (h g (by simp)), joinNybbles_groups gs r (fun x hx => h x (by simp [hx]))]
    simp

theorem joinNybbles_zeros : ∀ (k : Nat) (r : List Nat), joinNybbles (List.replicate (2 * k) 0 ++ r) = List.replicate k 0 ++ joinNybbles r
  | 0, r => by simp
  | k + 1, r => by
    rw [show 2 * (k + 1) = (2 * k) + 1 + 1 by omega, List.replicate_succ, List.replicate_succ, List.replicate_succ, List.cons_append,
      List.cons_append, joinNybbles, joinNybbles_zeros k r]
    simp

theorem quads_length : ∀ (gs : List (List UInt8)), (∀ g ∈ gs, Ip6.GroupOk g) → (gs.flatMap quad).length = 4 * gs.length
  | [], _ => rfl
  | g :: gs, h => by
    rw [List.flatMap_cons, List.length_append, quad_length (h g (by simp)), quads_length gs (fun x hx => h x (by simp [hx])), List.length_cons]
    omega

theorem countP_join : ∀ (gs : List (List UInt8)), (∀ g ∈ gs, Ip6.GroupOk g) → (Ip6.join gs).countP (· == 58) = gs.length - 1
  | [], _ => rfl
  | [g], h => by
    have := group_no58 (h g (by simp))
    simp only [Ip6.join, List.length_singleton]
    rw [List.countP_eq_zero.mpr]
    intro c hc
    simp only [beq_iff_eq]
    rintro rfl
    exact this hc
  | g :: g' :: gs, h => by
    have h1 := group_no58 (h g (by simp))
    have ih := countP_join (g' :: gs) (fun x hx => h x (by simp only [List.mem_cons] at hx ⊢; exact Or.inr hx))
    have h0 : g.countP (· == 58) = 0 := by
      rw [List.countP_eq_zero]
      intro c hc
      simp only [beq_iff_eq]
      rintro rfl
      exact h1 hc
    rw [show Ip6.join (g :: g' :: gs) = g ++ 58 :: Ip6.join (g' :: gs) from rfl, List.countP_append, List.countP_cons, ih, h0]
    simp

theorem join_length : ∀ (gs : List (List UInt8)), (∀ g ∈ gs, Ip6.GroupOk g) → (Ip6.join gs).length ≤ 5 * gs.length ∧ gs.length ≤ (Ip6.join gs).length
  | [], _ => by simp [Ip6.join]
  | [g], h => by
    have h1 := (h g (by simp)).1
    have h2 := (h g (by simp)).2.1
    simp only [Ip6.join, List.length_singleton]
    omega
  | g :: g' :: gs, h => by
    have h1 := (h g (by simp)).1
    have h2 := (h g (by simp)).2.1
    have ih := join_length (g' :: gs) (fun x hx => h x (by simp only [List.mem_cons] at hx ⊢; exact Or.inr hx))
    rw [show Ip6.join (g :: g' :: gs) = g ++ 58 :: Ip6.join (g' :: gs) from rfl]
    simp only [List.length_append, List.length_cons] at ih ⊢
    omega

theorem text_length (i : Ip6) (h : i.Ok) : i.text.length ≤ 42 ∧ i.text ≠ [] := by
  cases i with
  | full l =>
    have := join_length l h.2
    have h1 := h.1
    refine ⟨by simp only [Ip6.text]; omega, ?_⟩
    intro h0
    simp only [Ip6.text] at h0
    rw [h0] at this
    simp only [List.length_nil] at this
    omega
  | trail l =>
    have := join_length l h.2
    have h1 := h.1
    refine ⟨by simp only [Ip6.text, List.length_append, List.length_singleton]; omega, ?_⟩
    simp [Ip6.text]
  | short l r =>
    have h1 := join_length l h.2.1
    have h2 := join_length r h.2.2
    have h3 := h.1
    refine ⟨by simp only [Ip6.text, List.length_append, List.length_cons, List.length_nil]; omega, ?_⟩
    simp [Ip6.text]

/-- `ip6_to_raw` reads an address. -/
theorem ip6ToRaw_run {s : Stream} (i : Ip6) (h : i.Ok) : ip6ToRaw i.text s = .ok (some i.data, s) := by
  have hlen := text_length i h
  rw [ip6ToRaw, if_neg (by omega)]
  cases i with
  | full l =>
    obtain ⟨h8, hg⟩ := h
    have hl := join_length l hg
    have e1 := ip6_tail l ((Ip6.join l).length + 1) 0 0 false true (List.replicate 32 0) (by intro h0; simp [h0] at h8) hg (by omega) (by simp)
      (by omega)
    simp only [Ip6.text]
    rw [show ((0 : Nat) : Int) = 0 from rfl] at e1
    rw [e1, bind_pure', h8]
    have e2 := joinNybbles_groups l [] hg
    simp only [List.append_nil, joinNybbles] at e2
    simp [e2, Ip6.data, pure_run]
  | trail l =>
    obtain ⟨h8, hg⟩ := h
    have hl := join_length l hg
    have e1 := ip6_trail l ((Ip6.join l ++ [58]).length + 1) 0 0 false true (List.replicate 32 0) (by intro h0; simp [h0] at h8) hg (by omega) (by simp)
      (by simp; omega)
    simp only [Ip6.text]
    rw [show ((0 : Nat) : Int) = 0 from rfl] at e1
    rw [e1, bind_pure', h8]
    have e2 := joinNybbles_groups l [] hg
    simp only [List.append_nil, joinNybbles] at e2
    simp [e2, Ip6.data, pure_run]
  | short l r =>
    obtain ⟨h7, hl, hr⟩ := h
    have ll := join_length l hl
    have lr := join_length r hr
    have hhead : ∀ d, (Ip6.join r).head? = some d → d ≠ 58 := by
      cases r with
      | nil => simp [Ip6.join]
      | cons g gs => exact head_join hr
    have hcount := countP_join r hr
    have key : ∃ n c, r.length < n ∧ ip6Loop ((Ip6.text (.short l r)).length + 1) (Ip6.text (.short l r)) 0 0 false true (List.replicate 32 0) =
        ip6Loop n (Ip6.join r) ((4 * (8 - max 1 r.length) : Nat) : Int) c true false
          (l.flatMap quad ++ List.replicate (32 - 4 * l.length) 0) := by
      cases l with
      | nil =>
        refine ⟨(Ip6.text (.short [] r)).length, 1, by simp [Ip6.text]; omega, ?_⟩
        simp only [Ip6.text, Ip6.join, List.nil_append, List.cons_append]
        have k0 : countHere (fun b => (nybble b).isSome) (58 :: 58 :: Ip6.join r) = 0 := by
          simp [countHere, nybble]
        rw [ip6Loop, if_neg (by simp)]
        simp only [k0, colon_two hhead, and_self, if_true, Bool.false_eq_true, if_false, List.drop_succ_cons, List.drop_zero]
        congr 1
        · simp only [List.countP_cons, hcount]
          simp only [beq_self_eq_true, if_true]
          rcases Nat.eq_zero_or_pos r.length with h0 | h0
          · simp [h0]
          · simp at h7
            rw [Nat.max_eq_right h0]
            omega
      | cons g gs =>
        have := ip6_lead (g :: gs) ((Ip6.text (.short (g :: gs) r)).length + 1 - (g :: gs).length) 0 0 true (List.replicate 32 0) (Ip6.join r)
          (by simp) hl hhead (by simp only [List.length_cons] at h7 ⊢; omega) (by simp)
        have hfu : (Ip6.text (.short (g :: gs) r)).length ≥ (g :: gs).length + r.length + 2 := by
          simp only [Ip6.text, List.length_append, List.length_cons, List.length_nil] at ll ⊢
          omega
        rw [show (Ip6.text (.short (g :: gs) r)).length + 1 - (g :: gs).length + (g :: gs).length = (Ip6.text (.short (g :: gs) r)).length + 1
          by omega] at this
        refine ⟨(Ip6.text (.short (g :: gs) r)).length + 1 - (g :: gs).length, 0 + (g :: gs).length, by omega, ?_⟩
        rw [show Ip6.join (g :: gs) ++ 58 :: 58 :: Ip6.join r = Ip6.text (.short (g :: gs) r) by simp [Ip6.text]] at this
        rw [show ((0 : Nat) : Int) = 0 from rfl] at this
        rw [this]
        congr 1
        · rw [hcount]
          rcases Nat.eq_zero_or_pos r.length with h0 | h0
          · rw [h0]
            omega
          · rw [Nat.max_eq_right h0]
            omega
        · simp only [List.take_zero, List.nil_append, List.drop_replicate, Nat.zero_add]
    obtain ⟨n, c, hn, key⟩ := key
    rw [key]
    have hz : 4 * l.length + 4 * r.length ≤ 28 := by omega
    have ho : (l.flatMap quad ++ List.replicate (32 - 4 * l.length) 0).length = 32 := by
      rw [List.length_append, quads_length l hl, List.length_replicate]
      omega
    have fin : ip6Loop n (Ip6.join r) ((4 * (8 - max 1 r.length) : Nat) : Int) c true false
        (l.flatMap quad ++ List.replicate (32 - 4 * l.length) 0) =
        pure (l.flatMap quad ++ (List.replicate (2 * (16 - 2 * (l.length + r.length))) 0 ++ (r.flatMap quad ++ []))) := by
      cases r with
      | nil =>
        obtain ⟨n, rfl⟩ : ∃ m, n = m + 1 := ⟨n - 1, by omega⟩
        rw [Ip6.join, ip6Loop, if_pos (by simp), if_pos rfl]
        congr 2
        simp
        omega
      | cons g gs =>
        rw [Nat.max_eq_right (by simp)]
        rw [ip6_tail (g :: gs) n _ c true false _ (by simp) hr (by omega) ho (by omega)]
        congr 1
        rw [List.drop_eq_nil_of_le (by omega), List.take_append, List.take_of_length_le (by rw [quads_length l hl]; omega),
          quads_length l hl, List.take_replicate]
        simp only [List.append_assoc]
        congr 3
        omega
    rw [fin, bind_pure', joinNybbles_groups l _ hl, joinNybbles_zeros, joinNybbles_groups r _ hr]
    simp [Ip6.data, joinNybbles, pure_run]

theorem join_bytes : ∀ (gs : List (List UInt8)), (∀ g ∈ gs, Ip6.GroupOk g) → ∀ d ∈ Ip6.join gs, isHexOrColon d.toNat = true ∧ d.toNat < 128
  | [], _ => by simp [Ip6.join]
  | [g], h => by
    intro d hd
    have := hex_facts d ((h g (by simp)).2.2 d hd)
    exact ⟨this.1, this.2.1⟩
  | g :: g' :: gs, h => by
    intro d hd
    rw [show Ip6.join (g :: g' :: gs) = g ++ 58 :: Ip6.join (g' :: gs) from rfl, List.mem_append, List.mem_cons] at hd
    rcases hd with hd | rfl | hd
    · have := hex_facts d ((h g (by simp)).2.2 d hd)
      exact ⟨this.1, this.2.1⟩
    · decide
    · exact join_bytes (g' :: gs) (fun x hx => h x (by simp only [List.mem_cons] at hx ⊢; exact Or.inr hx)) d hd

theorem getAaaa_run {s : Stream} (h : Plain s) (g : Gap) (hg : g.Ok) (i : Ip6) (hi : i.Ok) (p : Piece) (hp : p.Ok) (r : List UInt8) :
    getAaaa (s.here (last g.first) (pieces g.rest ++ (i.text ++ (p.text ++ r)))) = .ok (some i.data, s.here (last p) r) := by
  have hlen := text_length i hi
  have hall : ∀ d ∈ i.text, isHexOrColon d.toNat = true ∧ d.toNat < 128 := by
    cases i with
    | full l => exact join_bytes l hi.2
    | trail l =>
      intro d hd
      simp only [Ip6.text, List.mem_append, List.mem_singleton] at hd
      rcases hd with hd | rfl
      · exact join_bytes l hi.2 d hd
      · decide
    | short l r =>
      intro d hd
      simp only [Ip6.text, List.mem_append, List.mem_cons, List.not_mem_nil, or_false] at hd
      rcases hd with (hd | rfl | rfl) | hd
      · exact join_bytes l hi.2.1 d hd
      · decide
      · decide
      · exact join_bytes r hi.2.2 d hd
  have hrun := ip6ToRaw_run (s := s.here (last p) r) i hi
  obtain ⟨c, t, ht⟩ := List.exists_cons_of_ne_nil hlen.2
  have hc := hall c (by simp [ht])
  rw [ht] at hall hlen hrun ⊢
  rw [List.cons_append, getAaaa, bind_ok (get1st_gap h skips_hexOrColon g hg c hc.1 hc.2 _), if_neg (by simp),
    bind_ok (something_run h skips_hexOrColon p hp c t r (by omega) hall)]
  exact hrun

end Csv2
end Mara
