import Verif.Mara.AclProps

/-!
# What an access list may not contain

Refused by the code: a mask of more than 32 bits and a list of more than 500 entries.  The
properties belong to C59.
-/

namespace Mara
namespace Acl
open Dw (Res)
open L Spec

/-- **C59**: a mask of more than 32 bits (written as a number the machine can hold) is refused. -/
theorem bits_over_32_refused {t ds : List UInt8} {ip : UInt32} (hd : Dotted t ip) (hds : IsDec ds)
    (h32 : 32 < decVal ds) (hv : decVal ds ≤ 2147483647) : ddipIpMask (t ++ 47 :: ds) = .err := by
  have s0 : ∀ {c : UInt8}, c ∈ numdotq ∧ c ≠ 47 ∧ c ≠ 44 ∧ c ≠ 32 ∧ c ≠ 9 → ¬ (c ∈ numdotq ↔ false = true) := by
    intro c h; simp [h.1]
  have s1 : ∀ {c : UInt8}, c ∈ numdotq ∧ c ≠ 47 ∧ c ≠ 44 ∧ c ≠ 32 ∧ c ≠ 9 → ¬ (c ∈ slashq ↔ true = true) := by
    intro c h; simp [slashq, h.2.1]
  obtain ⟨hne, hc⟩ := dotted_chars hd
  have f1 := find_hit (want := false) (e := numdotq) (pre := []) (mid := t) (post := ds) (x := 47)
    (fun c h => s0 (hc c h)) (by decide)
  have f2 := find_hit (want := true) (e := slashq) (pre := []) (mid := t) (post := ds) (x := 47)
    (fun c h => s1 (hc c h)) (by decide)
  have f3 := quad_dotted (pre := []) (post := 47 :: ds) hd (by intro c h; simp at h; subst h; decide)
  simp at f1 f2 f3
  have hl : t.length ≠ 0 := by simpa using hne
  have g1 := find_none (want := true) (e := dotq) (pre := t ++ [47]) (mid := ds)
    (fun c h => by simp [dotq, (dec_char (hds.2 c h)).2.1])
  have g2 := atoi_dec (pre := t ++ [47]) (ds := ds) (post := []) hds (by simp) hv
  simp only [List.append_nil, List.append_assoc, List.length_append, List.length_cons, List.length_nil, List.cons_append, List.nil_append] at g1 g2
  simp only [ddipIpMask, f1, f2, g1]
  rw [if_neg (by simp [hl]), if_neg (by simp), f3, Res.ok_bind]
  simp only [ne_eq, not_true_eq_false, if_false, if_true]
  rw [g2, Res.ok_bind, show masks[decVal ds]? = none from List.getElem?_eq_none (by simp [masks]; omega)]

/-- `10.0.0.0/33` -/
example : ddipIpMask [49, 48, 46, 48, 46, 48, 46, 48, 47, 51, 51] = .err := by
  have d : ∀ {n : UInt8}, 48 ≤ n ∧ n ≤ 57 → IsDec [n] := fun h => ⟨by simp, by simpa using h⟩
  have h := Dotted.mk (a := [49, 48]) (b := [48]) (c := [48]) (d := [48]) ⟨by simp, by decide⟩ (d (by decide)) (d (by decide)) (d (by decide))
      (by decide) (by decide) (by decide) (by decide)
  exact bits_over_32_refused (ds := [51, 51]) h ⟨by simp, by decide⟩ (by decide) (by decide)

/-! ### Lists that are too long -/

theorem firstFree_full {max : Nat} {ps rest : List Pair} (hp : ∀ p ∈ ps, p.1 ≠ 0xffffffff) (hm : ps.length = max) :
    ∀ (n index : Nat), index ≤ max → max ≤ index + n → firstFree max (ps ++ rest) n index = max := by
  intro n
  induction n with
  | zero => intro index h1 h2; rw [firstFree]; omega
  | succ n ih =>
    intro index h1 h2
    rw [firstFree]
    by_cases h : index < ps.length
    · have : (ps ++ rest)[index]? = some ps[index] := by rw [List.getElem?_append_left h]; simp [h]
      rw [if_pos ⟨by omega, by rw [this]; simpa using hp _ (List.getElem_mem h)⟩, ih _ (by omega) (by omega)]
    · rw [if_neg (by omega)]; omega

/-- A list with more entries than there is room for is an error. -/
def Overflows (f : List UInt8 → List Pair → Res (List Pair)) (max : Nat) (l : List UInt8) (es : List Pair) : Prop :=
  ∀ (ps : List Pair) (k : Nat), (∀ p ∈ ps, p.1 ≠ 0xffffffff) → ps.length ≤ max → max < ps.length + es.length →
    max ≤ ps.length + k → f l (ps ++ List.replicate k free) = .err

theorem loop_overflows {names : List UInt8 → Option (List UInt8)} {d max : Nat} {sub : List UInt8 → List Pair → Res (List Pair)}
    (hsub : ∀ u es, Denotes names d u es → (∀ e ∈ es, e.1 ≠ 0xffffffff) → Fills sub max u es)
    (hover : ∀ u es, Denotes names d u es → (∀ e ∈ es, e.1 ≠ 0xffffffff) → Overflows sub max u es) :
    ∀ (ts : List (List UInt8)) (es : List Pair), DenotesAll names d ts es → (∀ e ∈ es, e.1 ≠ 0xffffffff) → ts ≠ [] →
    ∀ (pre : List UInt8) (n index : Nat) (ps : List Pair) (k : Nat), ts.length ≤ n → index ≤ ps.length →
    (∀ p ∈ ps, p.1 ≠ 0xffffffff) → ps.length ≤ max → max < ps.length + es.length → max ≤ ps.length + k →
    loop names sub max (pre ++ commas ts) n pre.length index (ps ++ List.replicate k free) = .err := by
  intro ts
  induction ts with
  | nil => intro _ _ _ h; exact absurd rfl h
  | cons t0 ts ih =>
    intro es hd hes _ pre n index ps k hn hi hp h0 h1 h2
    obtain ⟨n, rfl⟩ := Nat.exists_eq_succ_of_ne_zero (by simp at hn; omega : n ≠ 0)
    have tail : ∀ (len index : Nat) (new es' : List Pair), DenotesAll names d ts es' → es = new ++ es' →
        len = t0.length → index ≤ ps.length + new.length → ps.length + new.length ≤ max →
        (match (if (if ts = [] then ([] : List UInt8) else 44 :: commas ts) = [] then none else some (pre.length + len)) with
        | none => Res.ok (ps ++ new ++ List.replicate (k - new.length) free)
        | some j => loop names sub max (pre ++ commas (t0 :: ts)) n (j + 1) index (ps ++ new ++ List.replicate (k - new.length) free)) =
          .err := by
      intro len index new es' hd' he hlen hix hfit
      by_cases ht : ts = []
      · subst ht
        cases hd'
        simp [he] at h1
        omega
      · rw [if_neg ht, if_neg (by simp)]
        have e1 : pre ++ commas (t0 :: ts) = (pre ++ t0 ++ [44]) ++ commas ts := by
          rw [commas_cons, if_neg ht]; simp
        have := ih es' hd' (fun e h => hes e (by rw [he]; simp [h])) ht (pre ++ t0 ++ [44]) n index (ps ++ new) (k - new.length)
          (by simp at hn; omega) (by simpa using hix) (fun p h => by
            rcases List.mem_append.1 h with h | h
            · exact hp p h
            · exact hes p (by rw [he]; simp [h])) (by simpa using hfit) (by rw [he] at h1; simp at h1 ⊢; omega)
          (by simp; omega)
        have e2 : pre.length + len + 1 = (pre ++ t0 ++ [44]).length := by simp [hlen]; omega
        simp only [e2, e1, this]
    have hrest : (if ts = [] then ([] : List UInt8) else 44 :: commas ts) = [] ∨
        ∃ r, (if ts = [] then ([] : List UInt8) else 44 :: commas ts) = 44 :: r := by
      by_cases ht : ts = []
      · left; rw [if_pos ht]
      · right; exact ⟨_, by rw [if_neg ht]⟩
    rw [loop]
    cases hd with
    | @entry _ a b t _ e es' htok hn0 he hall =>
      rw [show commas (padded a t b :: ts) = padded a t b ++ (if ts = [] then [] else 44 :: commas ts) from commas_cons,
        nextItem_exact htok hrest, Res.ok_bind]
      simp only [hn0]
      by_cases hfull : ps.length = max
      · rw [firstFree_full hp hfull max index (by omega) (by omega), if_pos (Nat.le_refl _)]
        rfl
      · have hk : 0 < k := by omega
        have hfree : firstFree max (ps ++ List.replicate k free) max index = ps.length :=
          firstFree_at hp (by intro p h; cases k <;> simp [List.replicate_succ] at h; subst h; rfl)
            (by omega) (by cases k <;> simp at hk ⊢) max index hi (by omega)
        rw [hfree, if_neg (by omega), entry_exact he]
        simp only [Res.ok_bind, set_free hk]
        have := tail (padded a t b).length ps.length [e] es' hall rfl rfl (by simp) (by simp; omega)
        rw [commas_cons] at this
        exact this
    | @name _ a b t u _ es1 es' htok hn0 hu hall =>
      rw [show commas (padded a t b :: ts) = padded a t b ++ (if ts = [] then [] else 44 :: commas ts) from commas_cons,
        nextItem_exact htok hrest, Res.ok_bind]
      simp only [hn0]
      by_cases hfull : max < ps.length + es1.length
      · rw [hover u es1 hu (fun e h => hes e (by simp [h])) ps k hp h0 hfull h2]
        rfl
      · rw [hsub u es1 hu (fun e h => hes e (by simp [h])) ps k hp (by omega) h2]
        simp only [Res.ok_bind]
        have := tail (padded a t b).length index es1 es' hall rfl rfl (by omega) (by omega)
        rw [commas_cons] at this
        exact this

theorem makeAcl_overflows {names : List UInt8 → Option (List UInt8)} {max : Nat} : ∀ (d : Nat) (l : List UInt8) (es : List Pair),
    Denotes names d l es → (∀ e ∈ es, e.1 ≠ 0xffffffff) → Overflows (makeAcl names max d) max l es := by
  intro d
  induction d with
  | zero => intro l es h; cases h
  | succ d ih =>
    intro l es h hes
    cases h with
    | @mk _ ts _ hne hall =>
      intro ps k hp h0 h1 h2
      exact loop_overflows (sub := makeAcl names max d) (max := max) (fun u es hu he => makeAcl_fills d u es hu he)
        (fun u es hu he => ih u es hu he) ts es hall hes hne [] (_ + 1) 0 ps k (commas_fuel) (by omega) hp h0 h1 h2

/-- **C59**: a list that means more than 500 entries is refused as a whole. -/
theorem too_many_refused {names : List UInt8 → Option (List UInt8)} {l : List UInt8} {es : List Pair}
    (h : Denotes names 33 l es) (hes : ∀ e ∈ es, e.1 ≠ 0xffffffff) (hn : 500 < es.length) :
    makeAcl names 500 33 l blank = .err := by
  have := makeAcl_overflows 33 l es h hes [] 512 (by simp) (by simp) (by simpa using hn) (by simp)
  rw [List.nil_append] at this
  exact this

/-- 501 times `1.2.3.4` -/
example : makeAcl (fun _ => none) 500 33 (commas (List.replicate 501 [49, 46, 50, 46, 51, 46, 52])) blank = .err := by
  have d : ∀ {n : UInt8}, 48 ≤ n ∧ n ≤ 57 → IsDec [n] := fun h => ⟨by simp, by simpa using h⟩
  have h := Dotted.mk (a := [49]) (b := [50]) (c := [51]) (d := [52]) (d (by decide)) (d (by decide)) (d (by decide)) (d (by decide))
    (by decide) (by decide) (by decide) (by decide)
  have e := Entry4.host h
  have q : (quadVal (decVal [49]) (decVal [50]) (decVal [51]) (decVal [52]), leading 32) = (0x01020304, 0xffffffff) := by decide +kernel
  rw [q] at e
  have all : ∀ n, DenotesAll (fun _ => none) 32 (List.replicate n [49, 46, 50, 46, 51, 46, 52]) (List.replicate n (0x01020304, 0xffffffff)) := by
    intro n
    induction n with
    | zero => exact .nil
    | succ n ih =>
      rw [List.replicate_succ, List.replicate_succ]
      exact DenotesAll.entry (a := 0) (b := 0) (t := [49, 46, 50, 46, 51, 46, 52]) ⟨by decide +kernel, by decide +kernel, by decide +kernel, by decide +kernel, by decide +kernel⟩ rfl e ih
  refine too_many_refused (Denotes.mk (by intro hx; have := congrArg List.length hx; rw [List.length_replicate] at this; simp at this) (all 501)) ?_ ?_
  · intro p hp
    rw [List.eq_of_mem_replicate hp]; decide
  · rw [List.length_replicate]; decide

end Acl
end Mara
