import Verif.Deadwood.AnySafe
/-!
# Lemmas: a referral made of anything
-/

namespace Dw
namespace Dissect
open DwStr Spec

/-- A name is at this place of the string. -/
def Named (s : DwStr) (R : List (List UInt8) → Prop) (o : Nat) : Prop :=
  ∃ ls rest, s.contents.drop o = encName ls ++ rest ∧ LabelsOk ls ∧ ls.length < 87 ∧ R ls

theorem bailiwickLoop_any {s query b : DwStr} (hs : Usable s) (hq : Usable query) (hb : Usable b) :
    ∀ (n : Nat) (cells : List (Nat × Nat)) (ms : List Int), (∀ m ∈ ms, m ≠ 32) →
    ∃ l, bailiwickLoop s query b n (cells.zip ms) = .ok l ∧ (∀ m ∈ l, m ≠ 32) ∧
      ∀ x ∈ (cells.zip l).take n, x.2 ≠ 37 → inBailiwick s x.1.1 b (some query) = .ok true
  | 0, cells, ms, h => by
    refine ⟨_, by unfold bailiwickLoop; rfl, fun m hm => ?_, by simp⟩
    obtain ⟨x, hx, rfl⟩ := List.mem_map.1 hm
    exact h _ (List.of_mem_zip hx).2
  | n + 1, [], ms, h => ⟨[], by simp [bailiwickLoop], by simp, by simp⟩
  | n + 1, c :: cells, [], h => ⟨[], by simp [bailiwickLoop], by simp, by simp⟩
  | n + 1, c :: cells, m :: ms, h => by
    simp only [List.zip_cons_cons, bailiwickLoop]
    obtain ⟨r, e1⟩ := inBailiwick_any hs hb hq c.1
    obtain ⟨l, e2, h2, h3⟩ := bailiwickLoop_any hs hq hb n cells ms fun x hx => h x (by simp [hx])
    rw [e1, e2]
    refine ⟨_, rfl, fun x hx => ?_, fun x hx hx2 => ?_⟩
    · rcases List.mem_cons.1 hx with rfl | hx
      · have := h m (by simp)
        split <;> omega
      · exact h2 x hx
    · simp only [List.zip_cons_cons, List.take_succ_cons] at hx
      rcases List.mem_cons.1 hx with rfl | hx
      · simp only at hx2 ⊢
        cases r with
        | true => exact e1
        | false => simp at hx2
      · exact h3 x hx hx2

theorem link_range (i : Nat) {m : Int} (h : 32 ≤ m ∧ m ≤ 35) (a : Int) : 32 ≤ (link i m a).1 ∧ (link i m a).1 ≤ 35 := by
  have : m = 32 ∨ m = 33 ∨ m = 34 ∨ m = 35 := by omega
  unfold link
  simp only
  split
  · rcases this with rfl | rfl | rfl | rfl <;> decide
  split
  · rcases this with rfl | rfl | rfl | rfl <;> decide
  · exact h

theorem linkOne_any {s : DwStr} (hs : Usable s) (i o : Nat) : ∀ (l : List ((Nat × Nat) × Int)) (m : Int), 32 ≤ m ∧ m ≤ 35 →
    ∃ m' l', linkOne s i o l m = .ok (m', l') ∧ (32 ≤ m' ∧ m' ≤ 35) ∧ l'.length = l.length
  | [], m, h => ⟨m, [], rfl, h, rfl⟩
  | (c, a) :: rest, m, h => by
    obtain ⟨r, e⟩ := isSame_safe hs hs o c.1
    unfold linkOne
    rw [e, Res.ok_bind]
    cases r with
    | true =>
      simp only [if_true]
      obtain ⟨m', l', e2, h2, h3⟩ := linkOne_any hs i o rest (link i m a).1 (link_range i h a)
      rw [e2]
      exact ⟨_, _, rfl, h2, by simp [h3]⟩
    | false =>
      simp only [Bool.false_eq_true, if_false]
      obtain ⟨m', l', e2, h2, h3⟩ := linkOne_any hs i o rest m h
      rw [e2]
      exact ⟨_, _, rfl, h2, by simp [h3]⟩

/-- How many marks say that there is no glue. -/
def bare (ms : List Int) : Nat := (ms.filter (· == 32)).length

theorem bare_cons (m : Int) (ms : List Int) : bare (m :: ms) ≤ bare ms + 1 := by
  unfold bare
  rw [List.filter_cons]
  split <;> simp

theorem bare_none {ms : List Int} (h : ∀ m ∈ ms, m ≠ 32) : bare ms = 0 := by
  unfold bare
  rw [List.length_eq_zero_iff, List.filter_eq_nil_iff]
  intro m hm
  simpa using h m hm

theorem linkLoop_any {s : DwStr} (hs : Usable s) (arCells : List (Nat × Nat)) (P : Nat × Nat → Prop) :
    ∀ (n i : Nat) (cells : List (Nat × Nat)) (ms ar : List Int), (∀ m ∈ ms, m ≠ 32) →
    (∀ x ∈ (cells.zip ms).take n, x.2 ≠ 37 → P x.1) → (∀ m ∈ ar, ¬ isGlue m) →
    ∃ ms' ar', linkLoop s arCells n i (cells.zip ms) ar = .ok (ms', ar') ∧ ar'.length ≤ ar.length ∧ bare ms' ≤ n ∧
      (((∀ m ∈ ar', ¬ isGlue m) ∧ ∀ m ∈ ms', m ≠ 32) ∨ ∃ x ∈ cells.zip ms', x.2 ≠ 36 ∧ x.2 ≠ 37 ∧ P x.1) ∧
      ∀ x ∈ (cells.zip ms').take n, x.2 ≠ 37 → P x.1 := by
  -- the additional records may already be marked
  have safe : ∀ (n i : Nat) (cells : List (Nat × Nat)) (ms ar : List Int), (∀ m ∈ ms, m ≠ 32) →
      (∀ x ∈ (cells.zip ms).take n, x.2 ≠ 37 → P x.1) →
      ∃ ms' ar', linkLoop s arCells n i (cells.zip ms) ar = .ok (ms', ar') ∧ ar'.length ≤ ar.length ∧ bare ms' ≤ n ∧
        ∀ x ∈ (cells.zip ms').take n, x.2 ≠ 37 → P x.1 := by
    intro n
    induction n with
    | zero =>
      intro i cells ms ar h hP
      have : ∀ m ∈ (cells.zip ms).map (·.2), m ≠ 32 := by
        intro m hm
        obtain ⟨x, hx, rfl⟩ := List.mem_map.1 hm
        exact h _ (List.of_mem_zip hx).2
      exact ⟨_, _, by unfold linkLoop; rfl, Nat.le_refl _, by rw [bare_none this]; omega, by simp⟩
    | succ n ih =>
      intro i cells ms ar h hP
      match cells, ms with
      | [], ms => exact ⟨[], ar, by simp [linkLoop], Nat.le_refl _, by simp [bare], by simp⟩
      | c :: cells, [] => exact ⟨[], ar, by simp [linkLoop], Nat.le_refl _, by simp [bare], by simp⟩
      | c :: cells, m :: ms =>
        have h' : ∀ x ∈ ms, x ≠ 32 := fun x hx => h x (by simp [hx])
        simp only [List.zip_cons_cons, List.take_succ_cons] at hP
        have hP' : ∀ x ∈ (cells.zip ms).take n, x.2 ≠ 37 → P x.1 := fun x hx => hP x (by simp [hx])
        simp only [List.zip_cons_cons, linkLoop]
        by_cases hm : m = 2
        · obtain ⟨m', l', e1, -, h2⟩ := linkOne_any hs i (c.2 + 10) (arCells.zip ar) 32 (by omega)
          obtain ⟨ms', ar', e, h3, h4, h5⟩ := ih (i + 1) cells ms l' h' hP'
          rw [if_pos hm, e1, Res.ok_bind]
          simp only [e]
          refine ⟨m' :: ms', ar', rfl, ?_, ?_, fun x hx hx2 => ?_⟩
          · simp only [List.length_zip] at h2; omega
          · have := bare_cons m' ms'; omega
          · simp only [List.zip_cons_cons, List.take_succ_cons] at hx
            rcases List.mem_cons.1 hx with rfl | hx
            · exact hP (c, m) (by simp) (by simp only; omega)
            · exact h5 x hx hx2
        · obtain ⟨ms', ar', e, h3, h4, h5⟩ := ih (i + 1) cells ms ar h' hP'
          rw [if_neg hm, Res.ok_bind]
          simp only [e]
          refine ⟨m :: ms', ar', rfl, h3, by have := bare_cons m ms'; omega, fun x hx hx2 => ?_⟩
          simp only [List.zip_cons_cons, List.take_succ_cons] at hx
          rcases List.mem_cons.1 hx with rfl | hx
          · exact hP (c, m) (by simp) hx2
          · exact h5 x hx hx2
  intro n
  induction n with
  | zero =>
    intro i cells ms ar h _ h3
    have : ∀ m ∈ (cells.zip ms).map (·.2), m ≠ 32 := by
      intro m hm
      obtain ⟨x, hx, rfl⟩ := List.mem_map.1 hm
      exact h _ (List.of_mem_zip hx).2
    exact ⟨_, _, by unfold linkLoop; rfl, Nat.le_refl _, by rw [bare_none this]; omega, .inl ⟨h3, this⟩, by simp⟩
  | succ n ih =>
    intro i cells ms ar h hP h3
    match cells, ms with
    | [], ms => exact ⟨[], ar, by simp [linkLoop], Nat.le_refl _, by simp [bare], .inl ⟨h3, by simp⟩, by simp⟩
    | c :: cells, [] => exact ⟨[], ar, by simp [linkLoop], Nat.le_refl _, by simp [bare], .inl ⟨h3, by simp⟩, by simp⟩
    | c :: cells, m :: ms =>
      have h' : ∀ x ∈ ms, x ≠ 32 := fun x hx => h x (by simp [hx])
      simp only [List.zip_cons_cons, List.take_succ_cons] at hP
      have hP' : ∀ x ∈ (cells.zip ms).take n, x.2 ≠ 37 → P x.1 := fun x hx => hP x (by simp [hx])
      simp only [List.zip_cons_cons, linkLoop]
      by_cases hm : m = 2
      · obtain ⟨m', l', e1, hr, h2⟩ := linkOne_any hs i (c.2 + 10) (arCells.zip ar) 32 (by omega)
        obtain ⟨ms', ar', e, h3, h4, h5⟩ := safe n (i + 1) cells ms l' h' hP'
        rw [if_pos hm, e1, Res.ok_bind]
        simp only [e]
        refine ⟨m' :: ms', ar', rfl, ?_, ?_, .inr ⟨(c, m'), by simp, by simp only; omega, by simp only; omega, hP (c, m) (by simp) (by simp only; omega)⟩,
          fun x hx hx2 => ?_⟩
        · simp only [List.length_zip] at h2; omega
        · have := bare_cons m' ms'; omega
        · simp only [List.zip_cons_cons, List.take_succ_cons] at hx
          rcases List.mem_cons.1 hx with rfl | hx
          · exact hP (c, m) (by simp) (by simp only; omega)
          · exact h5 x hx hx2
      · obtain ⟨ms', ar', e, h4, h5, h6, h8⟩ := ih (i + 1) cells ms ar h' hP' h3
        rw [if_neg hm, Res.ok_bind]
        simp only [e]
        refine ⟨m :: ms', ar', rfl, h4, by have := bare_cons m ms'; omega, ?_, fun x hx hx2 => ?_⟩
        swap
        · simp only [List.zip_cons_cons, List.take_succ_cons] at hx
          rcases List.mem_cons.1 hx with rfl | hx
          · exact hP (c, m) (by simp) hx2
          · exact h8 x hx hx2
        rcases h6 with ⟨h6, h7⟩ | ⟨x, hx, h6⟩
        · refine .inl ⟨h6, fun x hx => ?_⟩
          rcases List.mem_cons.1 hx with rfl | hx
          · exact h _ (by simp)
          · exact h7 x hx
        · exact .inr ⟨x, by simp [hx], h6⟩

/-! ### The zone of a referral -/

/-- What is at a place begins like a name, as long as it is. -/
def Good (s : DwStr) (most o : Nat) : Prop :=
  o < 65536 ∧ most ≤ s.len + 64 ∧ (most = 0 ∨ ∀ stale, Legible (((s.contents ++ [stale]).drop o).take most))

theorem good_of {s : DwStr} (hs : Usable s) {o e : Nat} (ho : o < 65536) (h : getDnEnd s o = .ok e) : Good s (e - o) o := by
  have hcl := hs.clen
  have hle : o ≤ s.len := by
    unfold getDnEnd at h
    simp only [hs.sane, Bool.not_true, Bool.false_eq_true, if_false] at h
    unfold dnEndLoop at h
    split at h
    · cases h
    · omega
  have hw : e ≤ s.len + 64 := (getDnEnd_any hs o hle).get h
  refine ⟨ho, by omega, .inr fun stale => ?_⟩
  rcases getDnEnd_exact hs o with ⟨e', ⟨ls, c, rest, h1, h2, h3, h4⟩, h5⟩ | ⟨-, h5 | ⟨r, h5, h6⟩⟩
  · rw [h] at h5
    cases h5
    left
    have hd : (s.contents ++ [stale]).drop o = encLabels ls ++ c :: (rest ++ [stale]) := by
      rw [List.drop_append_of_le_length (by omega), h1]; simp
    have hlen : (encLabels ls).length + 1 ≤ e - o := by rcases h4 with ⟨-, h4⟩ | ⟨-, h4⟩ <;> omega
    refine ⟨ls, c, (rest ++ [stale]).take (e - o - (encLabels ls).length - 1), ?_, h2, h3, ?_⟩
    · rw [hd, List.take_append, List.take_of_length_le (by omega)]
      obtain ⟨k, hk⟩ : ∃ k, e - o - (encLabels ls).length = k + 1 := ⟨e - o - (encLabels ls).length - 1, by omega⟩
      rw [hk]
      simp
    · rcases h4 with ⟨h4, -⟩ | ⟨h4, -⟩
      · exact .inl h4
      · have := UInt8.le_iff_toNat_le.1 h4
        have e : (192 : UInt8).toNat = 192 := rfl
        omega
  · rw [h] at h5; cases h5
  · rw [h] at h5
    cases h5
    right
    simp only [List.length_take, List.length_drop, List.length_append, List.length_singleton]
    omega

theorem longest_any {s : DwStr} (hs : Usable s) (R : List (List UInt8) → Prop) : ∀ (l : List ((Nat × Nat) × Int)) (most o : Nat),
    (∀ c ∈ l, c.1.1 < 65536) → Good s most o →
    ∃ most' o', longest s l most o = .ok (most', o') ∧ Good s most' o' ∧ most ≤ most' ∧
      ∀ x ∈ l, x.2 ≠ 36 → x.2 ≠ 37 → Named s R x.1.1 → 0 < most'
  | [], most, o, _, h => ⟨most, o, rfl, h, Nat.le_refl _, by simp⟩
  | (c, m) :: rest, most, o, hc, h => by
    have ih := fun (most o : Nat) (h : Good s most o) => longest_any hs R rest most o (fun x hx => hc x (by simp [hx])) h
    unfold longest
    split
    · rename_i hm
      rcases getDnEnd_safe hs c.1 with e | ⟨r, e⟩
      · simp only [e]
        obtain ⟨a, b, h1, h2, h3, h4⟩ := ih most o h
        refine ⟨a, b, h1, h2, h3, fun x hx g1 g2 g3 => ?_⟩
        rcases List.mem_cons.1 hx with rfl | hx
        · exfalso
          obtain ⟨ls, rs, k1, k2, k3, -⟩ := g3
          have := getDnEnd_of hs (o := c.1) (e := c.1 + (encLabels ls).length + 1)
            ⟨ls, 0, rs, by rw [k1]; simp [encName], k2, by omega, .inl ⟨rfl, rfl⟩⟩
          rw [e] at this
          cases this
        · exact h4 x hx g1 g2 g3
      · simp only [e]
        have hg := good_of hs (hc (c, m) (by simp)) e
        split
        · rename_i hgt
          obtain ⟨a, b, h1, h2, h3, h4⟩ := ih (r - c.1) c.1 hg
          exact ⟨a, b, h1, h2, by omega, fun x _ _ _ _ => by omega⟩
        · rename_i hgt
          obtain ⟨a, b, h1, h2, h3, h4⟩ := ih most o h
          refine ⟨a, b, h1, h2, h3, fun x hx g1 g2 g3 => ?_⟩
          rcases List.mem_cons.1 hx with rfl | hx
          · obtain ⟨ls, rs, k1, k2, k3, -⟩ := g3
            have := getDnEnd_of hs (o := c.1) (e := c.1 + (encLabels ls).length + 1)
              ⟨ls, 0, rs, by rw [k1]; simp [encName], k2, by omega, .inl ⟨rfl, rfl⟩⟩
            rw [e] at this
            cases this
            omega
          · exact h4 x hx g1 g2 g3
    · rename_i hm
      obtain ⟨a, b, h1, h2, h3, h4⟩ := ih most o h
      refine ⟨a, b, h1, h2, h3, fun x hx g1 g2 g3 => ?_⟩
      rcases List.mem_cons.1 hx with rfl | hx
      · exact absurd ⟨g1, g2⟩ hm
      · exact h4 x hx g1 g2 g3

/-- When every record considered has a name of a kind, so has the one chosen. -/
theorem longest_names {s : DwStr} (hs : Usable s) {R : List (List UInt8) → Prop} : ∀ (l : List ((Nat × Nat) × Int)) {most o a b : Nat},
    (∀ x ∈ l, x.2 ≠ 37 → Named s R x.1.1) → (most = 0 ∨ ∃ ls rest, s.contents.drop o = encName ls ++ rest ∧ LabelsOk ls ∧
      R ls ∧ ls.length < 87 ∧ most = (encName ls).length) → longest s l most o = .ok (a, b) →
    a = 0 ∨ ∃ ls rest, s.contents.drop b = encName ls ++ rest ∧ LabelsOk ls ∧ R ls ∧ ls.length < 87 ∧ a = (encName ls).length
  | [], most, o, a, b, _, h, e => by
    unfold longest at e
    cases e
    exact h
  | (c, m) :: rest, most, o, a, b, hl, h, e => by
    have hl' : ∀ x ∈ rest, x.2 ≠ 37 → Named s R x.1.1 := fun x hx => hl x (by simp [hx])
    unfold longest at e
    split at e
    · rename_i hm
      obtain ⟨ls, rs, k1, k2, k3, k4⟩ := hl (c, m) (by simp) hm.2
      have hd := getDnEnd_of hs (o := c.1) (e := c.1 + (encLabels ls).length + 1)
        ⟨ls, 0, rs, by rw [k1]; simp [encName], k2, by omega, .inl ⟨rfl, rfl⟩⟩
      simp only [hd] at e
      split at e
      · exact longest_names hs rest hl' (.inr ⟨ls, rs, k1, k2, k4, k3, by simp [encName]; omega⟩) e
      · exact longest_names hs rest hl' h e
    · exact longest_names hs rest hl' h e

/-! ### The parts of a referral -/

/-- What is known of a referral: reading a name at its beginning ends; when all records were checked, it begins with a name that
was accepted, or it says that nobody serves the root. -/
def Told (few : Prop) (R : List (List UInt8) → Prop) (c : List UInt8) : Prop :=
  Legible c ∧ (few → c = [0, 16] ∨ ∃ z x, LabelsOk z ∧ R z ∧ z.length < 87 ∧ c = encName z ++ x)

theorem create_any {n : Nat} (h : 0 < n) (junk : List UInt8) : Fine (create n junk) Usable := by
  by_cases h2 : n < 134217728
  · obtain ⟨o, e, ho, -, -⟩ := create_usable n junk h h2
    exact .inr ⟨o, e, ho⟩
  · unfold create
    rw [if_pos (by omega)]
    exact .err

theorem nsGlueless_any {s : DwStr} (hs : Usable s) (hsz : Short s) (o : Nat) (ho : o < 100000) (junk : List UInt8) :
    Fine (nsGlueless s o junk) Usable := by
  unfold nsGlueless
  obtain ⟨v, e, -⟩ := fetchI_any hs o (by omega)
  rw [e, Res.ok_bind]
  refine (oneName_any hs hsz _ junk).bind fun t ht => ?_
  split
  · exact .err
  · refine (create_any (by omega) junk).bind fun o1 h1 => ?_
    refine (addchar_any 2 h1).bind fun o2 h2 => ?_
    refine (pushU16_any _ h2.1).bind fun o3 h3 => ?_
    exact (append_any ht h3.1).mono fun o4 h4 => h4.1

theorem gluelessLoop_any {s : DwStr} (hs : Usable s) (hsz : Short s) (junk : List UInt8) : ∀ (l : List ((Nat × Nat) × Int))
    (out : DwStr) (offs : List Nat), (∀ c ∈ l, c.1.2 < 65536) → Usable out → offs.length ≤ 31 →
    Fine (gluelessLoop s junk l out offs) fun r => Usable r.1 ∧ ∃ x, r.1.contents = out.contents ++ x
  | [], out, offs, _, ho, hl => .ok ⟨ho, [], by simp⟩
  | (c, m) :: rest, out, offs, hc, ho, hl => by
    have hrest : ∀ c ∈ rest, c.1.2 < 65536 := fun c h => hc c (by simp [h])
    unfold gluelessLoop
    split
    · rw [if_neg (by omega)]
      simp only
      refine (nsGlueless_any hs hsz (c.2 + 8) (by have := hc (c, m) (by simp); simp only at this; omega) junk).bind fun t ht => ?_
      refine (append_any ht ho).bind fun o1 h1 => ?_
      split
      · exact .err
      · rename_i hlt
        obtain ⟨x, hx⟩ := h1.2.2
        refine (gluelessLoop_any hs hsz junk rest o1 _ hrest h1.1 (by omega)).mono fun r hr => ?_
        obtain ⟨h2, y, hy⟩ := hr
        exact ⟨h2, x ++ y, by rw [hy, hx, List.append_assoc]⟩
    · exact gluelessLoop_any hs hsz junk rest out offs hrest ho hl

theorem gluedLoop_none {s : DwStr} (junk : List UInt8) : ∀ (l : List ((Nat × Nat) × Int)) (out : DwStr) (offs : List Nat),
    (∀ c ∈ l, ¬ isGlue c.2) → gluedLoop s junk l out offs = .ok (out, offs)
  | [], _, _, _ => rfl
  | (c, m) :: rest, out, offs, h => by
    unfold gluedLoop
    rw [if_neg (h (c, m) (by simp))]
    exact gluedLoop_none junk rest out offs fun c hc => h c (by simp [hc])

theorem gluelessLoop_none {s : DwStr} (junk : List UInt8) : ∀ (l : List ((Nat × Nat) × Int)) (out : DwStr) (offs : List Nat),
    (∀ c ∈ l, c.2 ≠ 32) → gluelessLoop s junk l out offs = .ok (out, offs)
  | [], _, _, _ => rfl
  | (c, m) :: rest, out, offs, h => by
    unfold gluelessLoop
    rw [if_neg (h (c, m) (by simp))]
    exact gluelessLoop_none junk rest out offs fun c hc => h c (by simp [hc])

theorem gluelessLen_any {s : DwStr} (hs : Usable s) : ∀ (l : List ((Nat × Nat) × Int)), (∀ c ∈ l, c.1.2 < 65536) →
    Fine (gluelessLen s l) (· ≤ 65542 * bare (l.map (·.2)))
  | [], _ => .ok (by simp [bare])
  | (c, m) :: rest, h => by
    have ih := gluelessLen_any hs rest fun c hc => h c (by simp [hc])
    unfold gluelessLen
    split
    · rename_i hm
      obtain ⟨v, e, hv⟩ := fetchI_any hs (c.2 + 8) (by have := h (c, m) (by simp); simp only at this; omega)
      rw [e, Res.ok_bind]
      split
      · exact .err
      · refine ih.bind fun n hn => .ok ?_
        have : bare (((c, m) :: rest).map (·.2)) = bare (rest.map (·.2)) + 1 := by
          subst hm
          simp [bare]
        rw [this]
        omega
    · rename_i hm
      refine ih.mono fun n hn => ?_
      have : bare (((c, m) :: rest).map (·.2)) = bare (rest.map (·.2)) := by
        have hm' : (m == 32) = false := by simpa using hm
        simp [bare, hm']
      rw [this]
      exact hn

theorem bare_zip (cells : List (Nat × Nat)) (ms : List Int) : bare ((cells.zip ms).map (·.2)) ≤ bare ms := by
  induction cells generalizing ms with
  | nil => simp [bare]
  | cons c cells ih =>
    cases ms with
    | nil => simp [bare]
    | cons m ms =>
      simp only [List.zip_cons_cons, List.map_cons]
      have := ih ms
      unfold bare at this ⊢
      rw [List.filter_cons, List.filter_cons]
      split <;> (try simp only [List.length_cons]) <;> omega

/-- A referral: a name can be looked for at its beginning. -/
theorem nsRefer_any {v : View} (hs : Usable v.look.packet) (hsz : Short v.look.packet) (hns : Small v.look.ns)
    (har : Small v.look.ar) (hb : bare v.ns ≤ 15) {few : Prop} {R : List (List UInt8) → Prop}
    (hfew : few → ∀ x ∈ v.look.ns.zip v.ns, x.2 ≠ 37 → Named v.look.packet R x.1.1) (hal : v.ar.length < 65536)
    (h : ((∀ m ∈ v.ar, ¬ isGlue m) ∧ ∀ m ∈ v.ns, m ≠ 32) ∨
      ∃ x ∈ v.look.ns.zip v.ns, x.2 ≠ 36 ∧ x.2 ≠ 37 ∧ Named v.look.packet (fun _ => True) x.1.1) (junk : List UInt8) :
    Fine (nsRefer v junk) (Kept (Told few R)) := by
  have hsz' := hsz
  unfold Short at hsz'
  have hg := glueLen_le v.ar
  unfold nsRefer
  refine (gluelessLen_any hs _ fun c hc => (zip_small hns v.ns c hc).2).bind fun n hn => ?_
  have hz := bare_zip v.look.ns v.ns
  have hn' : n ≤ 65542 * 15 := by
    refine Nat.le_trans hn (Nat.mul_le_mul_left _ ?_)
    omega
  unfold nsReferProc findReferral
  obtain ⟨most, o, e1, ⟨g1, g2, g3⟩, -, g5⟩ := longest_any hs (fun _ => True) (v.look.ns.zip v.ns) 0 (v.look.ns.headD (0, 0)).1
    (fun c hc => (zip_small hns v.ns c hc).1) ⟨by
      cases hh : v.look.ns with
      | nil => simp
      | cons c cs => exact (hns c (by rw [hh]; simp)).1, by omega, .inl rfl⟩
  rw [e1, Res.ok_bind]
  obtain ⟨c, stale, e2, hc, -, hcc⟩ := substr_any hs o most (glueLen v.ar + n + 3) junk (by omega) (by omega) (by omega)
  have e2' : v.look.packet.substr o most ((glueLen v.ar + n + 3 : Nat) : Int) junk = .ok c := e2
  simp only [e2', Res.ok_bind]
  have last : ∀ {o1 o2 : DwStr} {k : UInt8}, Usable o1 → Legible o1.contents → addchar k o1 = .ok o2 → Legible o2.contents :=
    fun h1 h2 h3 => by rw [((addchar_any _ h1).get h3).2.2]; exact h2.append _
  have kept : ∀ {o1 : DwStr}, Usable o1 → Told few R (o1.contents ++ [16]) → Fine (addchar 16 o1) (Kept (Told few R)) := fun h1 h2 =>
    (addchar_any 16 h1).mono fun o2 h3 => ⟨h3.1, fun x _ => by rw [h3.2.2]; exact h2, fun x hx => by
      rw [h3.2.2] at hx
      have := (List.append_inj' hx rfl).2
      simp at this⟩
  by_cases h0 : most = 0
  · have hempty : c.contents = [] := by rw [hcc, h0]; simp
    rcases h with ⟨h1, h2⟩ | ⟨x, hx, h1, h2, h3⟩
    · rw [gluedLoop_none junk _ c [] (fun x hx => h1 _ (List.of_mem_zip hx).2)]
      simp only [Res.ok_bind]
      rw [gluelessLoop_none junk _ c [] (fun x hx => h2 _ (List.of_mem_zip hx).2)]
      simp only [Res.ok_bind, pushAll, List.length_nil]
      refine (addchar_any _ hc).bind fun o2 h2 => kept h2.1 ?_
      rw [h2.2.2, hempty]
      exact ⟨.inl ⟨[], 0, [16], rfl, (by intro l hl; cases hl), by simp, .inl rfl⟩, fun _ => .inl rfl⟩
    · have := g5 x hx h1 h2 h3
      omega
  · have hleg : Legible c.contents := by
      rw [hcc]
      rcases g3 with g3 | g3
      · exact absurd g3 h0
      · exact g3 stale
    rcases gluedLoop_safe hs junk (v.look.ar.zip v.ar) c [] (fun x hx => by have := (zip_small har v.ar x hx).2; omega) hc (by simp)
      with e | ⟨o1, f1, e, h1, h2, x, hx⟩
    · rw [e]; exact .err
    · rw [e, Res.ok_bind]
      simp only
      refine (gluelessLoop_any hs hsz junk _ o1 f1 (fun x hx => (zip_small hns v.ns x hx).2) h1 h2).bind fun r hr => ?_
      obtain ⟨o2, f2⟩ := r
      obtain ⟨h3, y, hy⟩ := hr
      simp only at h3 hy ⊢
      refine (pushAll_any _ h3).bind fun o3 h4 => ?_
      obtain ⟨h4, z, hz⟩ := h4
      refine (addchar_any _ h4).bind fun o4 h5 => kept h5.1 ?_
      rw [h5.2.2, hz, hy, hx]
      refine ⟨((((hleg.append _).append _).append _).append _).append _, fun hf => .inr ?_⟩
      obtain ⟨ls, rest, k1, k2, k3, k5, k4⟩ := (longest_names hs _ (hfew hf) (.inl rfl) e1).resolve_left h0
      have : c.contents = encName ls := by
        have hpos : 0 < (encName ls).length := by simp [encName]
        have hin : o < v.look.packet.contents.length := by
          by_contra hh
          rw [List.drop_of_length_le (by omega)] at k1
          have := congrArg List.length k1
          simp only [List.length_nil, List.length_append] at this
          omega
        rw [hcc, List.drop_append_of_le_length (by omega), k1, k4]
        simp
      rw [this]
      simp only [List.append_assoc]
      exact ⟨ls, _, k2, k3, k5, rfl⟩

end Dissect
end Dw
