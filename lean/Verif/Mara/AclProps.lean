import Verif.Mara.AclModel
import Verif.Spec.Acl4
import Mathlib.Tactic.SplitIfs
/-!
# C59, C60: access lists of the authoritative server
-/

namespace Mara
namespace Acl
open Dw (Res)
open L Spec

/-! ### Numbers and dots -/

theorem dec_char {c : UInt8} (h : 48 ≤ c ∧ c ≤ 57) : c ∈ numdotq ∧ c ≠ 46 ∧ c ≠ 47 ∧ c ≠ 44 ∧ c ≠ 32 ∧ c ≠ 9 := by
  have : ∀ n : Fin 256, 48 ≤ UInt8.ofNat n ∧ UInt8.ofNat n ≤ 57 → UInt8.ofNat n ∈ numdotq ∧
    UInt8.ofNat n ≠ 46 ∧ UInt8.ofNat n ≠ 47 ∧ UInt8.ofNat n ≠ 44 ∧ UInt8.ofNat n ≠ 32 ∧ UInt8.ofNat n ≠ 9 := by decide +kernel
  have := this ⟨c.toNat, c.toNat_lt⟩
  simp only [UInt8.ofNat_toNat] at this
  exact this h

theorem dot_tail {l : List UInt8} : ∀ c ∈ (46 :: l : List UInt8).head?, ¬ (48 ≤ c ∧ c ≤ 57) := by
  intro c hc; simp at hc; subst hc; decide

theorem dec_find {pre ds post : List UInt8} (hd : IsDec ds) :
    find true dotq (pre ++ (ds ++ 46 :: post)) (pre.length + 1) = some (pre.length + ds.length) := by
  obtain ⟨x, ds', rfl⟩ := List.exists_cons_of_ne_nil hd.1
  have := find_hit (want := true) (e := dotq) (pre := pre ++ [x]) (mid := ds') (post := post) (x := 46)
    (fun c hc => by
      have := (dec_char (hd.2 c (by simp [hc]))).2.1
      simp [dotq, this]) (by simp [dotq])
  simp only [List.append_assoc, List.length_append, List.length_cons, List.length_nil, List.cons_append, List.nil_append] at this ⊢
  rw [this]
  congr 1; omega

theorem quad_val {a b c d : Nat} (ha : a ≤ 255) (hb : b ≤ 255) (hc : c ≤ 255) (hd : d ≤ 255) :
    ((((0 ||| (UInt32.ofNat a <<< UInt32.ofNat (8 * 3))) ||| (UInt32.ofNat b <<< UInt32.ofNat (8 * 2))) |||
      (UInt32.ofNat c <<< UInt32.ofNat (8 * 1))) ||| (UInt32.ofNat d <<< UInt32.ofNat (8 * 0))) = quadVal a b c d := by
  have sh : ∀ {x k : Nat}, x ≤ 255 → k ≤ 24 → (UInt32.ofNat x <<< UInt32.ofNat k).toNat = x <<< k := by
    intro x k hx hk
    have e : x * 2 ^ k < 4294967296 := by
      calc x * 2 ^ k ≤ 255 * 2 ^ 24 := Nat.mul_le_mul hx (Nat.pow_le_pow_right (by decide) hk)
        _ < 4294967296 := by decide
    rw [UInt32.toNat_shiftLeft]
    simp only [UInt32.toNat_ofNat']
    rw [Nat.mod_eq_of_lt (show x < 2 ^ 32 by omega), Nat.mod_eq_of_lt (show k < 2 ^ 32 by omega),
      Nat.mod_eq_of_lt (show k < 32 by omega), Nat.shiftLeft_eq, Nat.mod_eq_of_lt (by simpa using e)]
  apply UInt32.toNat_inj.1
  simp only [UInt32.toNat_or, sh ha (show 8 * 3 ≤ 24 by decide), sh hb (show 8 * 2 ≤ 24 by decide),
    sh hc (show 8 * 1 ≤ 24 by decide), sh hd (show 8 * 0 ≤ 24 by decide), quadVal, UInt32.toNat_ofNat']
  rw [show (0 : UInt32).toNat = 0 from rfl, Nat.zero_or, Nat.or_assoc, Nat.or_assoc]
  have e1 : c <<< (8 * 1) ||| d <<< (8 * 0) = c * 256 + d := by
    rw [show d <<< (8 * 0) = d by simp, ← Nat.shiftLeft_add_eq_or_of_lt (by omega), Nat.shiftLeft_eq]
  have e2 : b <<< (8 * 2) ||| (c * 256 + d) = b * 65536 + (c * 256 + d) := by
    rw [← Nat.shiftLeft_add_eq_or_of_lt (by omega), Nat.shiftLeft_eq]
  have e3 : a <<< (8 * 3) ||| (b * 65536 + (c * 256 + d)) = a * 16777216 + (b * 65536 + (c * 256 + d)) := by
    rw [← Nat.shiftLeft_add_eq_or_of_lt (by omega), Nat.shiftLeft_eq]
  rw [e1, e2, e3, Nat.mod_eq_of_lt (by omega)]
  omega

/-- An address is read from its place in a text, as long as no digit follows. -/
theorem quad_dotted {pre t post : List UInt8} {v : UInt32} (h : Dotted t v)
    (hp : ∀ c ∈ post.head?, ¬ (48 ≤ c ∧ c ≤ 57)) :
    quad (pre ++ (t ++ post)) 4 pre.length 0 = .ok v := by
  cases h with
  | @mk a b c d ha hb hc hd va vb vc vd =>
    have e0 : pre ++ ((a ++ 46 :: (b ++ 46 :: (c ++ 46 :: d))) ++ post) =
      pre ++ (a ++ 46 :: (b ++ 46 :: (c ++ 46 :: (d ++ post)))) := by simp
    rw [e0]
    have e1 : pre ++ (a ++ 46 :: (b ++ 46 :: (c ++ 46 :: (d ++ post)))) =
      (pre ++ a ++ [46]) ++ (b ++ 46 :: (c ++ 46 :: (d ++ post))) := by simp
    have e2 : pre ++ (a ++ 46 :: (b ++ 46 :: (c ++ 46 :: (d ++ post)))) =
      (pre ++ a ++ [46] ++ b ++ [46]) ++ (c ++ 46 :: (d ++ post)) := by simp
    have e3 : pre ++ (a ++ 46 :: (b ++ 46 :: (c ++ 46 :: (d ++ post)))) =
      (pre ++ a ++ [46] ++ b ++ [46] ++ c ++ [46]) ++ (d ++ post) := by simp
    have l1 : ((pre ++ a ++ [46]).length : Int) = (pre.length + a.length : Nat) + 1 := by simp; omega
    have l2 : ((pre ++ a ++ [46] ++ b ++ [46]).length : Int) = ((pre ++ a ++ [46]).length + b.length : Nat) + 1 := by simp; omega
    have l3 : ((pre ++ a ++ [46] ++ b ++ [46] ++ c ++ [46]).length : Int) = ((pre ++ a ++ [46] ++ b ++ [46]).length + c.length : Nat) + 1 := by simp; omega
    have f0 := dec_find (pre := pre) (post := b ++ 46 :: (c ++ 46 :: (d ++ post))) ha
    have f1 := dec_find (pre := pre ++ a ++ [46]) (post := c ++ 46 :: (d ++ post)) hb
    have f2 := dec_find (pre := pre ++ a ++ [46] ++ b ++ [46]) (post := d ++ post) hc
    have a0 := atoi_dec (pre := pre) (post := 46 :: (b ++ 46 :: (c ++ 46 :: (d ++ post)))) ha dot_tail (by omega)
    have a1 := atoi_dec (pre := pre ++ a ++ [46]) (post := 46 :: (c ++ 46 :: (d ++ post))) hb dot_tail (by omega)
    have a2 := atoi_dec (pre := pre ++ a ++ [46] ++ b ++ [46]) (post := 46 :: (d ++ post)) hc dot_tail (by omega)
    have a3 := atoi_dec (pre := pre ++ a ++ [46] ++ b ++ [46] ++ c ++ [46]) (post := post) hd hp (by omega)
    rw [← e1] at f1 a1
    rw [← e2] at f2 a2
    rw [← e3] at a3
    generalize pre ++ (a ++ 46 :: (b ++ 46 :: (c ++ 46 :: (d ++ post)))) = l at *
    simp only [quad]
    have s0 : ((pre.length : Int) + 1).toNat = pre.length + 1 := by omega
    rw [a0, Res.ok_bind]
    simp only [if_neg (show ¬ decVal a > 255 by omega), s0, f0]
    rw [← l1, a1, Res.ok_bind]
    have s1 : (((pre ++ a ++ [46]).length : Int) + 1).toNat = (pre ++ a ++ [46]).length + 1 := by omega
    simp only [if_neg (show ¬ decVal b > 255 by omega), s1, f1]
    rw [← l2, a2, Res.ok_bind]
    have s2 : (((pre ++ a ++ [46] ++ b ++ [46]).length : Int) + 1).toNat = (pre ++ a ++ [46] ++ b ++ [46]).length + 1 := by omega
    simp only [if_neg (show ¬ decVal c > 255 by omega), s2, f2]
    rw [← l3, a3, Res.ok_bind]
    simp only [if_neg (show ¬ decVal d > 255 by omega)]
    rw [if_neg (by omega), if_neg (by omega), if_neg (by omega), if_neg (by omega), quad_val va vb vc vd]

theorem dotted_chars {t : List UInt8} {v : UInt32} (h : Dotted t v) :
    t ≠ [] ∧ ∀ c ∈ t, c ∈ numdotq ∧ c ≠ 47 ∧ c ≠ 44 ∧ c ≠ 32 ∧ c ≠ 9 := by
  have dc : ∀ {c : UInt8}, 48 ≤ c ∧ c ≤ 57 → c ∈ numdotq ∧ c ≠ 47 ∧ c ≠ 44 ∧ c ≠ 32 ∧ c ≠ 9 := by
    intro c h
    obtain ⟨h1, -, h2, h3, h4, h5⟩ := dec_char h
    exact ⟨h1, h2, h3, h4, h5⟩
  cases h with
  | @mk a b c d ha hb hc hd =>
    refine ⟨by simp, ?_⟩
    intro x hx
    simp only [List.mem_append, List.mem_cons] at hx
    rcases hx with hx | rfl | hx | rfl | hx | rfl | hx
    · exact dc (ha.2 x hx)
    · decide
    · exact dc (hb.2 x hx)
    · decide
    · exact dc (hc.2 x hx)
    · decide
    · exact dc (hd.2 x hx)

theorem masks_leading : ∀ n ≤ 32, masks[n]? = some (leading n) := by decide +kernel

/-- **C59**: an entry of an access list is read as the address and mask it is meant to be. -/
theorem entry_exact {t : List UInt8} {e : UInt32 × UInt32} (h : Entry4 t e) : ddipIpMask t = .ok e := by
  have s0 : ∀ {c : UInt8}, c ∈ numdotq ∧ c ≠ 47 ∧ c ≠ 44 ∧ c ≠ 32 ∧ c ≠ 9 → ¬ (c ∈ numdotq ↔ false = true) := by
    intro c h; simp [h.1]
  have s1 : ∀ {c : UInt8}, c ∈ numdotq ∧ c ≠ 47 ∧ c ≠ 44 ∧ c ≠ 32 ∧ c ≠ 9 → ¬ (c ∈ slashq ↔ true = true) := by
    intro c h; simp [slashq, h.2.1]
  have slash : ∀ {t ip u}, Dotted t ip →
      find false numdotq (t ++ 47 :: u) 0 = some t.length ∧ find true slashq (t ++ 47 :: u) 0 = some t.length ∧
      quad (t ++ 47 :: u) 4 0 0 = .ok ip ∧ t.length ≠ 0 := by
    intro t ip u hd
    obtain ⟨hne, hc⟩ := dotted_chars hd
    have f1 := find_hit (want := false) (e := numdotq) (pre := []) (mid := t) (post := u) (x := 47)
      (fun c h => s0 (hc c h)) (by decide)
    have f2 := find_hit (want := true) (e := slashq) (pre := []) (mid := t) (post := u) (x := 47)
      (fun c h => s1 (hc c h)) (by decide)
    have f3 := quad_dotted (pre := []) (post := 47 :: u) hd (by intro c h; simp at h; subst h; decide)
    simp at f1 f2 f3
    exact ⟨f1, f2, f3, by simpa using hne⟩
  cases h with
  | @host t ip hd =>
    obtain ⟨hne, hc⟩ := dotted_chars hd
    have f1 := find_none (want := false) (e := numdotq) (pre := []) (mid := t) (fun c h => s0 (hc c h))
    have f2 := find_none (want := true) (e := slashq) (pre := []) (mid := t) (fun c h => s1 (hc c h))
    have f3 := quad_dotted (pre := []) (post := []) hd (by simp)
    simp only [List.append_nil, List.nil_append, List.length_nil] at f1 f2 f3
    have hl : t.length ≠ 0 := by simpa using hne
    simp only [ddipIpMask, f1, f2]
    rw [if_neg (by simp), if_neg (by omega)]
    have : quad t 4 0 0 = .ok ip := f3
    rw [this]; rfl
  | @bits t ip ds hd hds hv =>
    obtain ⟨f1, f2, f3, hl⟩ := slash (u := ds) hd
    have g1 := find_none (want := true) (e := dotq) (pre := t ++ [47]) (mid := ds)
      (fun c h => by simp [dotq, (dec_char (hds.2 c h)).2.1])
    have g2 := atoi_dec (pre := t ++ [47]) (ds := ds) (post := []) hds (by simp) (by omega)
    simp only [List.append_nil, List.append_assoc, List.length_append, List.length_cons, List.length_nil, List.cons_append, List.nil_append] at g1 g2
    simp only [ddipIpMask, f1, f2, g1]
    rw [if_neg (by simp [hl]), if_neg (by simp), f3, Res.ok_bind]
    simp only [ne_eq, not_true_eq_false, if_false, if_true]
    rw [g2, Res.ok_bind, masks_leading _ hv]
  | @mask t ip u m hd hm =>
    obtain ⟨f1, f2, f3, hl⟩ := slash (u := u) hd
    obtain ⟨hne, hc⟩ := dotted_chars hm
    have g1 := find_none (want := false) (e := numdotq) (pre := t ++ [47]) (mid := u) (fun c h => s0 (hc c h))
    have g3 := quad_dotted (pre := t ++ [47]) (post := []) hm (by simp)
    have g2 : ∃ d, find true dotq (t ++ 47 :: u) (t.length + 1) = some d := by
      cases hm with
      | @mk a b c d ha =>
        have := find_hit (want := true) (e := dotq) (pre := t ++ [47]) (mid := a) (x := 46)
          (post := b ++ 46 :: (c ++ 46 :: d)) (fun c h => by simp [dotq, (dec_char (ha.2 c h)).2.1]) (by decide)
        simp at this
        exact ⟨_, this⟩
    obtain ⟨d, g2⟩ := g2
    simp only [List.append_nil, List.append_assoc, List.length_append, List.length_cons, List.length_nil, List.cons_append, List.nil_append] at g1 g3
    simp only [ddipIpMask, f1, f2, g1, g2]
    rw [if_neg (by simp [hl]), if_neg (by simp), f3, Res.ok_bind]
    simp only [ne_eq, not_true_eq_false, if_false, Bool.false_eq_true]
    rw [g3, Res.ok_bind]

/-! ### The entries of a list -/

theorem skipLead_blanks {tab : Bool} {l : List UInt8} : ∀ (a n start : Nat), a ≤ n →
    (∀ i < a, l[start + i]? = some 32) → (∃ x, l[start + a]? = some x ∧ x ≠ 32 ∧ x ≠ 9) →
    skipLead tab l n start = start + a := by
  intro a
  induction a with
  | zero =>
    intro n start _ _ ⟨x, h1, h2, h3⟩
    cases n with
    | zero => rfl
    | succ n =>
      have h1 : l[start]? = some x := h1
      rw [skipLead, if_neg (by rw [h1]; simp [h2, h3])]
      rfl
  | succ a ih =>
    intro n start hn hb hx
    obtain ⟨n, rfl⟩ := Nat.exists_eq_succ_of_ne_zero (by omega : n ≠ 0)
    have := hb 0 (by omega)
    simp only [Nat.add_zero] at this
    rw [skipLead, if_pos (Or.inl this), ih n (start + 1) (by omega) (fun i hi => by
      have := hb (i + 1) (by omega)
      rw [← this]; congr 1; omega) (by
      rw [show start + 1 + a = start + (a + 1) by omega]; exact hx)]
    omega

theorem cutTail_stop {comma : Bool} {l : List UInt8} {start nx : Nat} {x y : UInt8} (hx : l[nx]? = some x)
    (h1 : x ≠ 32) (h2 : x ≠ 44) (hy : l[start]? = some y) (h3 : y ≠ 9) : cutTail comma l start nx = nx := by
  cases nx with
  | zero => rfl
  | succ nx => rw [cutTail, if_neg]; simp [hx, hy, h1, h2, h3]

theorem cutTail_run {comma : Bool} {l : List UInt8} {start m : Nat} (hs : start ≤ m) : ∀ k,
    (∀ i, m < i → i ≤ m + k → l[i]? = some 32 ∨ (comma = true ∧ l[i]? = some 44)) →
    cutTail comma l start (m + k) = cutTail comma l start m := by
  intro k
  induction k with
  | zero => intro _; rfl
  | succ k ih =>
    intro h
    rw [← Nat.add_assoc, cutTail, if_pos, ih (fun i h1 h2 => h i h1 (by omega))]
    refine ⟨by omega, ?_⟩
    rcases h (m + k + 1) (by omega) (by omega) with h | h
    · exact Or.inl h
    · exact Or.inr (Or.inr h)

/-- The text of an entry, and where the next begins. -/
theorem nextItem_exact {pre t rest : List UInt8} {a b : Nat} (ht : Token t) (hr : rest = [] ∨ ∃ r, rest = 44 :: r) :
    nextItem (pre ++ (padded a t b ++ rest)) pre.length =
      .ok (t, if rest = [] then none else some (pre.length + (padded a t b).length)) := by
  have hpl : (padded a t b).length = a + t.length + b := by simp [padded]; omega
  have htl : 0 < t.length := List.length_pos_iff.2 ht.ne
  have hnc : ∀ c ∈ padded a t b, c ≠ 44 := by
    intro c hc
    simp only [padded, List.mem_append, List.mem_replicate] at hc
    rcases hc with ⟨-, rfl⟩ | hc | ⟨-, rfl⟩
    · decide
    · rintro rfl; exact ht.comma hc
    · decide
  generalize hl : pre ++ (padded a t b ++ rest) = l
  have ix : ∀ i, l[pre.length + i]? = (padded a t b ++ rest)[i]? := by
    intro i; rw [← hl, List.getElem?_append_right (by omega)]; congr 1; omega
  have ixt : ∀ i, i < t.length → l[pre.length + a + i]? = t[i]? := by
    intro i hi
    rw [Nat.add_assoc, ix, padded, List.append_assoc, List.getElem?_append_right (by simp), List.append_assoc,
      List.getElem?_append_left (by simpa using hi)]
    congr 1; simp
  have ixa : ∀ i < a, l[pre.length + i]? = some 32 := by
    intro i hi
    rw [ix, padded, List.append_assoc, List.getElem?_append_left (by simpa using hi)]
    simp [hi]
  have ixb : ∀ i < b, l[pre.length + a + t.length + i]? = some 32 := by
    intro i hi
    rw [show pre.length + a + t.length + i = pre.length + (a + t.length + i) by omega, ix, padded, List.append_assoc,
      List.getElem?_append_right (by simp; omega), List.append_assoc, List.getElem?_append_right (by simp; omega),
      List.getElem?_append_left (by simp; omega)]
    simp [List.getElem?_replicate]; omega
  obtain ⟨x, hx⟩ : ∃ x, t[0]? = some x := ⟨t[0], by simp [htl]⟩
  obtain ⟨y, hy⟩ : ∃ y, t[t.length - 1]? = some y := ⟨t[t.length - 1], by simp [htl]⟩
  have hx1 := ht.first x (by rw [List.head?_eq_getElem?]; exact hx)
  have hy1 := ht.last y (by rw [List.getLast?_eq_getElem?]; exact hy)
  have hy2 : y ≠ 44 := by rintro rfl; exact ht.comma (List.mem_of_getElem? hy)
  have first : l[pre.length + a]? = some x := by have := ixt 0 htl; rw [hx] at this; exact this
  have last : l[pre.length + a + (t.length - 1)]? = some y := by have := ixt (t.length - 1) (by omega); rw [hy] at this; exact this
  have hlen : l.length = pre.length + (a + t.length + b) + rest.length := by rw [← hl]; simp [hpl]; omega
  have sub : ∀ m, m = pre.length + a + (t.length - 1) → substr l (pre.length + a) (m + 1 - (pre.length + a)) 256 = some t := by
    intro m hm
    subst hm
    have e : pre.length + a + (t.length - 1) + 1 - (pre.length + a) = t.length := by omega
    rw [e, substr, if_pos ⟨by omega, by omega, ht.short⟩, ← hl]
    congr 1
    have : pre ++ (padded a t b ++ rest) = (pre ++ List.replicate a 32) ++ (t ++ (List.replicate b 32 ++ rest)) := by
      simp [padded]
    rw [this, List.drop_left' (by simp), List.take_left' rfl]
  have stop : ∀ comma, cutTail comma l (pre.length + a) (pre.length + a + (t.length - 1)) = pre.length + a + (t.length - 1) :=
    fun comma => cutTail_stop last hy1 hy2 first hx1.2
  rcases hr with rfl | ⟨r, rfl⟩
  · have f : find true [44] l pre.length = none := by
      rw [← hl]
      simp only [List.append_nil]
      exact find_none (fun c hc => by simp [hnc c hc])
    have skip : skipLead false l (l.length - 1 - pre.length) pre.length = pre.length + a :=
      skipLead_blanks a _ _ (by simp at hlen; omega) ixa ⟨x, first, hx1⟩
    have cut : cutTail false l (pre.length + a) (l.length - 1) = pre.length + a + (t.length - 1) := by
      have : l.length - 1 = pre.length + a + (t.length - 1) + b := by simp at hlen; omega
      rw [this, cutTail_run (by omega) b (fun i h1 h2 => Or.inl ?_), stop]
      have := ixb (i - (pre.length + a + t.length)) (by omega)
      rw [← this]; congr 1; omega
    simp only [nextItem, f, skip, sub _ cut, if_true]
  · have f : find true [44] l pre.length = some (pre.length + (padded a t b).length) := by
      rw [← hl]
      exact find_hit (fun c hc => by simp [hnc c hc]) (by simp)
    have skip : skipLead true l (pre.length + (padded a t b).length - pre.length) pre.length = pre.length + a :=
      skipLead_blanks a _ _ (by omega) ixa ⟨x, first, hx1⟩
    have comma : l[pre.length + (padded a t b).length]? = some 44 := by
      rw [ix, List.getElem?_append_right (by omega)]; simp
    have cut : cutTail true l (pre.length + a) (pre.length + (padded a t b).length) = pre.length + a + (t.length - 1) := by
      have : pre.length + (padded a t b).length = pre.length + a + (t.length - 1) + (b + 1) := by omega
      rw [this, cutTail_run (by omega) (b + 1) (fun i h1 h2 => ?_), stop]
      by_cases hi : i = pre.length + (padded a t b).length
      · exact Or.inr ⟨rfl, by rw [hi]; exact comma⟩
      · left
        have := ixb (i - (pre.length + a + t.length)) (by omega)
        rw [← this]; congr 1; omega
    simp only [nextItem, f, skip, sub _ cut]
    rw [if_neg (by simp)]

/-! ### Whole lists -/

theorem firstFree_at {max : Nat} {ps rest : List Pair} (hp : ∀ p ∈ ps, p.1 ≠ 0xffffffff)
    (hr : ∀ p ∈ rest.head?, p.1 = 0xffffffff) (hm : ps.length < max) (hne : rest ≠ []) : ∀ (n index : Nat), index ≤ ps.length →
    ps.length ≤ index + n → firstFree max (ps ++ rest) n index = ps.length := by
  intro n
  induction n with
  | zero => intro index h1 h2; rw [firstFree]; omega
  | succ n ih =>
    intro index h1 h2
    rw [firstFree]
    by_cases h : index < ps.length
    · have : (ps ++ rest)[index]? = some ps[index] := by rw [List.getElem?_append_left h]; simp [h]
      rw [if_pos ⟨by omega, by rw [this]; simpa using hp _ (List.getElem_mem h)⟩, ih _ (by omega) (by omega)]
    · have hi : index = ps.length := by omega
      subst hi
      obtain ⟨r, rest, rfl⟩ := List.exists_cons_of_ne_nil hne
      have : (ps ++ r :: rest)[ps.length]? = some r := by simp
      rw [if_neg]
      rw [this]
      simp [hr r rfl]

/-- A free place in the array. -/
abbrev free : Pair := (0xffffffff, 0)

theorem set_free {ps : List Pair} {k : Nat} {p : Pair} (hk : 0 < k) :
    (ps ++ List.replicate k free).set ps.length p = (ps ++ [p]) ++ List.replicate (k - 1) free := by
  obtain ⟨k, rfl⟩ := Nat.exists_eq_succ_of_ne_zero (by omega : k ≠ 0)
  simp [List.replicate_succ]

theorem commas_cons {t : List UInt8} {ts : List (List UInt8)} :
    commas (t :: ts) = t ++ (if ts = [] then [] else 44 :: commas ts) := by
  cases ts with
  | nil => simp [commas]
  | cons u us => simp [commas]

theorem commas_fuel : ∀ {ts : List (List UInt8)}, ts.length ≤ (commas ts).length + 1 := by
  intro ts
  induction ts with
  | nil => simp
  | cons t ts ih =>
    rw [commas_cons]
    by_cases h : ts = []
    · subst h; simp
    · rw [if_neg h]; simp; omega

/-- What one call does to the array: the entries of the list follow those already there. -/
def Fills (f : List UInt8 → List Pair → Res (List Pair)) (max : Nat) (l : List UInt8) (es : List Pair) : Prop :=
  ∀ (ps : List Pair) (k : Nat), (∀ p ∈ ps, p.1 ≠ 0xffffffff) → ps.length + es.length ≤ max → max ≤ ps.length + k →
    f l (ps ++ List.replicate k free) = .ok (ps ++ es ++ List.replicate (k - es.length) free)

theorem loop_exact {names : List UInt8 → Option (List UInt8)} {d max : Nat} {sub : List UInt8 → List Pair → Res (List Pair)}
    (hsub : ∀ u es, Denotes names d u es → (∀ e ∈ es, e.1 ≠ 0xffffffff) → Fills sub max u es) :
    ∀ (ts : List (List UInt8)) (es : List Pair), DenotesAll names d ts es → (∀ e ∈ es, e.1 ≠ 0xffffffff) → ts ≠ [] →
    ∀ (pre : List UInt8) (n index : Nat) (ps : List Pair) (k : Nat), ts.length ≤ n → index ≤ ps.length →
    (∀ p ∈ ps, p.1 ≠ 0xffffffff) → ps.length + es.length ≤ max → max ≤ ps.length + k →
    loop names sub max (pre ++ commas ts) n pre.length index (ps ++ List.replicate k free) =
      .ok (ps ++ es ++ List.replicate (k - es.length) free) := by
  intro ts
  induction ts with
  | nil => intro _ _ _ h; exact absurd rfl h
  | cons t0 ts ih =>
    intro es hd hes _ pre n index ps k hn hi hp h1 h2
    obtain ⟨n, rfl⟩ := Nat.exists_eq_succ_of_ne_zero (by simp at hn; omega : n ≠ 0)
    -- the rest of the list, after the entries `new` have been added
    have tail : ∀ (len index : Nat) (new es' : List Pair), DenotesAll names d ts es' → es = new ++ es' →
        len = t0.length → index ≤ ps.length + new.length →
        (match (if (if ts = [] then ([] : List UInt8) else 44 :: commas ts) = [] then none else some (pre.length + len)) with
        | none => Res.ok (ps ++ new ++ List.replicate (k - new.length) free)
        | some j => loop names sub max (pre ++ commas (t0 :: ts)) n (j + 1) index (ps ++ new ++ List.replicate (k - new.length) free)) =
          .ok (ps ++ es ++ List.replicate (k - es.length) free) := by
      intro len index new es' hd' he hlen hix
      by_cases ht : ts = []
      · subst ht
        cases hd'
        simp [he]
      · rw [if_neg ht, if_neg (by simp)]
        have e1 : pre ++ commas (t0 :: ts) = (pre ++ t0 ++ [44]) ++ commas ts := by
          rw [commas_cons, if_neg ht]; simp
        have := ih es' hd' (fun e h => hes e (by rw [he]; simp [h])) ht (pre ++ t0 ++ [44]) n index (ps ++ new) (k - new.length)
          (by simp at hn; omega) (by simpa using hix) (fun p h => by
            rcases List.mem_append.1 h with h | h
            · exact hp p h
            · exact hes p (by rw [he]; simp [h])) (by rw [he] at h1; simp at h1 ⊢; omega)
          (by rw [he] at h1; simp at h1 ⊢; omega)
        have e2 : pre.length + len + 1 = (pre ++ t0 ++ [44]).length := by simp [hlen]; omega
        simp only [e2, e1, this]
        rw [he]
        congr 2
        · simp
        · congr 1; simp; omega
    have hrest : (if ts = [] then ([] : List UInt8) else 44 :: commas ts) = [] ∨
        ∃ r, (if ts = [] then ([] : List UInt8) else 44 :: commas ts) = 44 :: r := by
      by_cases ht : ts = []
      · left; rw [if_pos ht]
      · right; exact ⟨_, by rw [if_neg ht]⟩
    rw [loop]
    cases hd with
    | @entry _ a b t _ e es' htok hn0 he hall =>
      rw [show commas (padded a t b :: ts) = padded a t b ++ (if ts = [] then [] else 44 :: commas ts) from commas_cons,
        nextItem_exact htok hrest, Res.ok_bind]
      simp only [hn0]
      have hk : 0 < k := by simp at h1; omega
      have hfree : firstFree max (ps ++ List.replicate k free) max index = ps.length :=
        firstFree_at hp (by intro p h; cases k <;> simp [List.replicate_succ] at h; subst h; rfl)
          (by simp at h1; omega) (by cases k <;> simp at hk ⊢) max index hi (by simp at h1; omega)
      rw [hfree, if_neg (by simp at h1; omega), entry_exact he]
      simp only [Res.ok_bind, set_free hk]
      have := tail (padded a t b).length ps.length [e] es' hall rfl rfl (by simp)
      rw [commas_cons] at this
      exact this
    | @name _ a b t u _ es1 es' htok hn0 hu hall =>
      rw [show commas (padded a t b :: ts) = padded a t b ++ (if ts = [] then [] else 44 :: commas ts) from commas_cons,
        nextItem_exact htok hrest, Res.ok_bind]
      simp only [hn0]
      rw [hsub u es1 hu (fun e h => hes e (by simp [h])) ps k hp (by simp at h1; omega) h2]
      simp only [Res.ok_bind]
      have := tail (padded a t b).length index es1 es' hall rfl rfl (by omega)
      rw [commas_cons] at this
      exact this

theorem makeAcl_fills {names : List UInt8 → Option (List UInt8)} {max : Nat} : ∀ (d : Nat) (l : List UInt8) (es : List Pair),
    Denotes names d l es → (∀ e ∈ es, e.1 ≠ 0xffffffff) → Fills (makeAcl names max d) max l es := by
  intro d
  induction d with
  | zero => intro l es h; cases h
  | succ d ih =>
    intro l es h hes
    cases h with
    | @mk _ ts _ hne hall =>
      intro ps k hp h1 h2
      have := loop_exact (sub := makeAcl names max d) (max := max) (fun u es hu he => ih u es hu he) ts es hall hes hne [] (_ + 1) 0 ps k
        (commas_fuel) (by omega) hp h1 h2
      exact this

/-- **C59**: a list of up to 500 entries is taken for what it means, wherever names of lists
(nested up to 32 deep) are used in it. -/
theorem list_exact {names : List UInt8 → Option (List UInt8)} {l : List UInt8} {es : List Pair}
    (h : Denotes names 33 l es) (hes : ∀ e ∈ es, e.1 ≠ 0xffffffff) (hn : es.length ≤ 500) :
    makeAcl names 500 33 l blank = .ok (es ++ List.replicate (512 - es.length) free) := by
  have := makeAcl_fills 33 l es h hes [] 512 (by simp) (by simpa using hn) (by simp)
  rw [List.nil_append, List.nil_append] at this
  exact this

theorem checkFrom_free {ip : UInt32} : ∀ (n : Nat) (es : List Pair) (k : Nat), (∀ e ∈ es, e.1 ≠ 0xffffffff) → es.length ≤ n →
    (checkFrom ip n (es ++ List.replicate k free) = true ↔ ∃ e ∈ es, Within ip e) := by
  intro n es
  induction es generalizing n with
  | nil =>
    intro k _ _
    cases n <;> cases k <;> simp [checkFrom, List.replicate_succ]
  | cons e es ih =>
    intro k he hn
    obtain ⟨n, rfl⟩ := Nat.exists_eq_succ_of_ne_zero (by simp at hn; omega : n ≠ 0)
    rw [List.cons_append, checkFrom, if_neg (he e (by simp))]
    by_cases hw : ip &&& e.2 = e.1 &&& e.2
    · rw [if_pos hw]; simp only [true_iff]; exact ⟨e, by simp, hw⟩
    · rw [if_neg hw, ih n k (fun x h => he x (by simp [h])) (by simp at hn; omega)]
      constructor
      · rintro ⟨x, h1, h2⟩; exact ⟨x, by simp [h1], h2⟩
      · rintro ⟨x, h1, h2⟩
        rcases List.mem_cons.1 h1 with rfl | h1
        · exact absurd h2 hw
        · exact ⟨x, h1, h2⟩

/-- **C59**: a client is on the list exactly if it belongs to one of the entries written in it. -/
theorem admitted_iff {names : List UInt8 → Option (List UInt8)} {l : List UInt8} {es : List Pair}
    (h : Denotes names 33 l es) (hes : ∀ e ∈ es, e.1 ≠ 0xffffffff) (hn : es.length ≤ 500) (ip : UInt32) :
    ∃ out, makeAcl names 500 33 l blank = .ok out ∧ (check ip out = true ↔ ∃ e ∈ es, Within ip e) :=
  ⟨_, list_exact h hes hn, checkFrom_free 500 es _ hes hn⟩

/-- **C59**: belonging to `address/bits` means to agree with the address in the first bits. -/
theorem within_bits (x ip : UInt32) (n : Nat) (hn : n ≤ 32) :
    Within x (ip, leading n) ↔ x.toNat / 2 ^ (32 - n) = ip.toNat / 2 ^ (32 - n) := by
  have hl : (leading n).toNat = (2 ^ n - 1) <<< (32 - n) := by
    rw [leading, UInt32.toNat_ofNat', Nat.mod_eq_of_lt (by have := Nat.two_pow_pos (32 - n); omega), Nat.shiftLeft_eq,
      Nat.sub_mul, ← Nat.pow_add, show n + (32 - n) = 32 by omega, Nat.one_mul]
  have hb : ∀ i, (leading n).toNat.testBit i = decide (32 - n ≤ i ∧ i < 32) := by
    intro i
    rw [hl, Nat.testBit_shiftLeft, Nat.testBit_two_pow_sub_one]
    by_cases h : 32 - n ≤ i
    · simp [h]; omega
    · simp [h]
  have big : ∀ (y : UInt32) (i : Nat), 32 ≤ i → y.toNat.testBit i = false := by
    intro y i hi
    apply Nat.testBit_lt_two_pow
    exact Nat.lt_of_lt_of_le y.toNat_lt (Nat.pow_le_pow_right (by decide) hi)
  unfold Within
  constructor
  · intro h
    apply Nat.eq_of_testBit_eq
    intro i
    have := congrArg (fun y : UInt32 => y.toNat.testBit (i + (32 - n))) h
    simp only [UInt32.toNat_and, Nat.testBit_and, hb] at this
    rw [Nat.testBit_div_two_pow, Nat.testBit_div_two_pow]
    by_cases hi : i + (32 - n) < 32
    · simpa [hi] using this
    · rw [big x _ (by omega), big ip _ (by omega)]
  · intro h
    apply UInt32.toNat_inj.1
    apply Nat.eq_of_testBit_eq
    intro i
    simp only [UInt32.toNat_and, Nat.testBit_and, hb]
    by_cases hi : 32 - n ≤ i
    · have := congrArg (fun y : Nat => y.testBit (i - (32 - n))) h
      simp only [Nat.testBit_div_two_pow] at this
      rw [show i - (32 - n) + (32 - n) = i by omega] at this
      rw [this]
    · simp [hi]

/-! ### Examples and findings -/

def exNames : List UInt8 → Option (List UInt8) := fun t => if t = "lan".toUTF8.toList then some "10.0.0.0/8".toUTF8.toList else none

/-- A list with a name, blanks, and two kinds of networks. -/
example : makeAcl exNames 500 33 " lan , 192.168.1.0/255.255.255.0,127.0.0.1".toUTF8.toList blank =
    .ok ([(0x0a000000, 0xff000000), (0xc0a80100, 0xffffff00), (0x7f000001, 0xffffffff)] ++ List.replicate 509 free) := by
  decide +kernel

example : ∃ es, Denotes exNames 33 [32, 108, 97, 110, 32, 44, 49, 46, 50, 46, 51, 46, 52] es ∧ es = [(0x0a000000, 0xff000000), (0x01020304, 0xffffffff)] := by
  have d : ∀ {n : UInt8}, 48 ≤ n ∧ n ≤ 57 → IsDec [n] := fun h => ⟨by simp, by simpa using h⟩
  have e1 : Entry4 [49, 48, 46, 48, 46, 48, 46, 48, 47, 56] (0x0a000000, 0xff000000) := by
    have h := Dotted.mk (a := [49, 48]) (b := [48]) (c := [48]) (d := [48]) ⟨by simp, by decide⟩ (d (by decide)) (d (by decide)) (d (by decide))
      (by decide) (by decide) (by decide) (by decide)
    have := Entry4.bits (ds := [56]) h (d (by decide)) (by decide)
    have q : (quadVal (decVal [49, 48]) (decVal [48]) (decVal [48]) (decVal [48]), leading (decVal [56])) = (0x0a000000, 0xff000000) := by decide +kernel
    rw [q] at this
    exact this
  have e2 : Entry4 [49, 46, 50, 46, 51, 46, 52] (0x01020304, 0xffffffff) := by
    have h := Dotted.mk (a := [49]) (b := [50]) (c := [51]) (d := [52]) (d (by decide)) (d (by decide)) (d (by decide)) (d (by decide))
      (by decide) (by decide) (by decide) (by decide)
    have := Entry4.host h
    have q : (quadVal (decVal [49]) (decVal [50]) (decVal [51]) (decVal [52]), leading 32) = (0x01020304, 0xffffffff) := by decide +kernel
    rw [q] at this
    exact this
  have inner : Denotes exNames 32 [49, 48, 46, 48, 46, 48, 46, 48, 47, 56] [(0x0a000000, 0xff000000)] :=
    .mk (ts := [[49, 48, 46, 48, 46, 48, 46, 48, 47, 56]]) (by simp)
      (DenotesAll.entry (names := exNames) (a := 0) (b := 0) (t := [49, 48, 46, 48, 46, 48, 46, 48, 47, 56]) ⟨by decide +kernel, by decide +kernel, by decide +kernel, by decide +kernel, by decide +kernel⟩ (by decide +kernel) e1 .nil)
  refine ⟨_, .mk (ts := [padded 1 [108, 97, 110] 1, padded 0 [49, 46, 50, 46, 51, 46, 52] 0]) (by simp)
    (.name (t := [108, 97, 110]) (u := [49, 48, 46, 48, 46, 48, 46, 48, 47, 56]) ⟨by decide +kernel, by decide +kernel, by decide +kernel, by decide +kernel, by decide +kernel⟩ (by decide +kernel) inner
      (.entry ⟨by decide +kernel, by decide +kernel, by decide +kernel, by decide +kernel, by decide +kernel⟩ (by decide +kernel) e2 .nil)), rfl⟩

/-- **Finding.** A network without a number of bits, or with something that is not a number,
admits everybody. -/
theorem slash_without_number_admits_all (ip : UInt32) :
    (∃ out, makeAcl (fun _ => none) 500 33 "10.0.0.0/".toUTF8.toList blank = .ok out ∧ check ip out = true) ∧
    (∃ out, makeAcl (fun _ => none) 500 33 "10.0.0.0/x8".toUTF8.toList blank = .ok out ∧ check ip out = true) := by
  have h1 : makeAcl (fun _ => none) 500 33 "10.0.0.0/".toUTF8.toList blank = .ok ((0x0a000000, 0) :: List.replicate 511 free) := by
    decide +kernel
  have h2 : makeAcl (fun _ => none) 500 33 "10.0.0.0/x8".toUTF8.toList blank = .ok ((0x0a000000, 0) :: List.replicate 511 free) := by
    decide +kernel
  have h3 : check ip ((0x0a000000, 0) :: List.replicate 511 free) = true := by
    simp [check, checkFrom]
  exact ⟨⟨_, h1, h3⟩, ⟨_, h2, h3⟩⟩

/-- **Finding.** An address with too few numbers is not refused but completed in an odd way:
`10.1` is 10.1.0.1. -/
theorem short_address_accepted : ddipIpMask "10.1".toUTF8.toList = .ok (0x0a010001, 0xffffffff) := by decide +kernel

/-- **Finding.** The address 255.255.255.255 marks the end of a list: the entry before another
one is lost. -/
theorem broadcast_lost :
    makeAcl (fun _ => none) 500 33 "255.255.255.255/0,10.0.0.1".toUTF8.toList blank =
      .ok ((0x0a000001, 0xffffffff) :: List.replicate 511 free) := by decide +kernel

/-! ### C60: rights of TCP clients -/

instance (ip : UInt32) (e : Pair) : Decidable (Within ip e) := by unfold Within; infer_instance

theorem permLoop_one {ip : UInt32} : ∀ (n : Nat) (es : List Pair) (k p0 : Nat), (∀ e ∈ es, e.1 ≠ 0xffffffff) → es.length ≤ n →
    permLoop ip (fun _ => 1) n (es ++ List.replicate k free) p0 = if (∃ e ∈ es, Within ip e) then 1 else p0 := by
  intro n es
  induction es generalizing n with
  | nil => intro k p0 _ _; cases n <;> cases k <;> simp [permLoop, List.replicate_succ]
  | cons e es ih =>
    intro k p0 he hn
    obtain ⟨n, rfl⟩ := Nat.exists_eq_succ_of_ne_zero (by simp at hn; omega : n ≠ 0)
    rw [List.cons_append, permLoop, if_neg (he e (by simp)), ih n k _ (fun x h => he x (by simp [h])) (by simp at hn; omega)]
    by_cases hw : Within ip e
    · have : ∃ x ∈ e :: es, Within ip x := ⟨e, by simp, hw⟩
      rw [if_pos this, if_pos (show ip &&& e.2 = e.1 &&& e.2 from hw)]
      split_ifs <;> rfl
    · rw [if_neg (show ¬ (ip &&& e.2 = e.1 &&& e.2) from hw)]
      have : (∃ x ∈ e :: es, Within ip x) ↔ ∃ x ∈ es, Within ip x := by simp [hw]
      simp only [this]

/-- How many entries a client belongs to. -/
def hits (ip : UInt32) (es : List Pair) : Nat := (es.filter (fun e => ip &&& e.2 == e.1 &&& e.2)).length

theorem permLoop_add {ip : UInt32} {c : Nat} : ∀ (n : Nat) (es : List Pair) (k p0 : Nat), (∀ e ∈ es, e.1 ≠ 0xffffffff) → es.length ≤ n →
    permLoop ip (· + c) n (es ++ List.replicate k free) p0 = p0 + hits ip es * c := by
  intro n es
  induction es generalizing n with
  | nil => intro k p0 _ _; cases n <;> cases k <;> simp [permLoop, List.replicate_succ, hits]
  | cons e es ih =>
    intro k p0 he hn
    obtain ⟨n, rfl⟩ := Nat.exists_eq_succ_of_ne_zero (by simp at hn; omega : n ≠ 0)
    rw [List.cons_append, permLoop, if_neg (he e (by simp)), ih n k _ (fun x h => he x (by simp [h])) (by simp at hn; omega)]
    by_cases hw : ip &&& e.2 = e.1 &&& e.2
    · rw [if_pos hw, hits, hits, List.filter_cons_of_pos (by simpa using hw), List.length_cons, Nat.add_mul]; omega
    · rw [if_neg hw, hits, hits, List.filter_cons_of_neg (by simpa using hw)]

/-- **C60 (partial).** A client may transfer zones exactly if it is on the list for zone
transfers.  If it belongs to no more than one entry of the list for forwarding, and of the list
for recursion, it may use forwarding and recursion exactly if it is on those lists, and it is
turned away exactly if it may neither transfer zones nor use forwarding.

Missing: clients that belong to several entries (`two_entries_turned_away`,
`two_entries_give_recursion`). -/
theorem rights_exact_partial {ip : UInt32} {a b c : List Pair} (ha : ∀ e ∈ a, e.1 ≠ 0xffffffff) (hb : ∀ e ∈ b, e.1 ≠ 0xffffffff)
    (hc : ∀ e ∈ c, e.1 ≠ 0xffffffff) (la : a.length ≤ 500) (lb : b.length ≤ 500) (lc : c.length ≤ 500)
    (i j k : Nat) :
    (∀ p, gettcp ip (a ++ List.replicate i free) (b ++ List.replicate j free) (c ++ List.replicate k free) = some p →
      (p &&& 1 = 1 ↔ ∃ e ∈ a, Within ip e)) ∧
    (hits ip b ≤ 1 → hits ip c ≤ 1 →
      gettcp ip (a ++ List.replicate i free) (b ++ List.replicate j free) (c ++ List.replicate k free) =
        if (∃ e ∈ a, Within ip e) ∨ (∃ e ∈ b, Within ip e) then
          some ((if ∃ e ∈ a, Within ip e then 1 else 0) + (if ∃ e ∈ b, Within ip e then 2 else 0) +
            (if ∃ e ∈ c, Within ip e then 4 else 0))
        else none) := by
  have hh : ∀ es : List Pair, (∃ e ∈ es, Within ip e) ↔ 0 < hits ip es := by
    intro es
    rw [hits, List.length_pos_iff_exists_mem]
    simp [Within]
  have hg : gettcp ip (a ++ List.replicate i free) (b ++ List.replicate j free) (c ++ List.replicate k free) =
      if ((if ∃ e ∈ a, Within ip e then 1 else 0) + hits ip b * 2 + hits ip c * 4) &&& 3 = 0 then none
      else some ((if ∃ e ∈ a, Within ip e then 1 else 0) + hits ip b * 2 + hits ip c * 4) := by
    rw [gettcp, permLoop_one 500 a i 0 ha la, permLoop_add 500 b j _ hb lb, permLoop_add 500 c k _ hc lc]
  rw [hg]
  constructor
  · intro p hp
    split_ifs at hp with h1 h2 h2
    · cases hp
      refine ⟨fun _ => h1, fun _ => ?_⟩
      rw [show (1 : Nat) = 2 ^ 1 - 1 from rfl, Nat.and_two_pow_sub_one_eq_mod]; omega
    · cases hp
      refine ⟨fun h => ?_, fun h => absurd h h1⟩
      rw [show (1 : Nat) = 2 ^ 1 - 1 from rfl, Nat.and_two_pow_sub_one_eq_mod] at h; omega
  · intro h1 h2
    simp only [hh] 
    have e3 : ∀ n : Nat, n &&& 3 = n % 4 := fun n => by
      rw [show (3 : Nat) = 2 ^ 2 - 1 from rfl, Nat.and_two_pow_sub_one_eq_mod]
    rw [e3]
    have c1 : hits ip b = 0 ∨ hits ip b = 1 := by omega
    have c2 : hits ip c = 0 ∨ hits ip c = 1 := by omega
    by_cases c0 : 0 < hits ip a <;> rcases c1 with c1 | c1 <;> rcases c2 with c2 | c2 <;> simp [c0, c1, c2]

/-- **Finding.** A client that belongs to two entries of the list for forwarding is turned away. -/
theorem two_entries_turned_away :
    gettcp 0x0a000001 blank ([(0x0a000000, 0xff000000), (0x0a000001, 0xffffffff)] ++ List.replicate 510 free) blank = none := by
  decide +kernel

/-- **Finding.** A client that belongs to three entries of the list for forwarding, and to none of
the list for recursion, is given recursion. -/
theorem two_entries_give_recursion :
    gettcp 0x0a000001 blank ([(0x0a000000, 0xff000000), (0x0a000001, 0xffffffff), (0x0a000000, 0xffffff00)] ++ List.replicate 509 free)
      blank = some 6 := by
  decide +kernel

example : gettcp 0x0a000001 ([(0x0a000000, 0xff000000)] ++ List.replicate 511 free) ([(0x0a000001, 0xffffffff)] ++ List.replicate 511 free)
    blank = some 3 ∧ hits 0x0a000001 [(0x0a000001, 0xffffffff)] ≤ 1 := by decide +kernel

end Acl
end Mara
