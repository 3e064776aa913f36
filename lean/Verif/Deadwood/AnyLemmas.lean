import Verif.Deadwood.DissectFinish
import Verif.Deadwood.CompressSafe
import Verif.Deadwood.DecompSafe
/-!
# Lemmas: strings that hold anything

What the functions of DissectModel.lean do with a string whose contents nobody has checked.
-/

namespace Dw

/-- An error, or a result with a property: nothing undefined. -/
def Fine {α : Type} (r : Res α) (P : α → Prop) : Prop := r = .err ∨ ∃ x, r = .ok x ∧ P x

theorem Fine.bind {α β : Type} {r : Res α} {P : α → Prop} {f : α → Res β} {Q : β → Prop} (h : Fine r P)
    (k : ∀ x, P x → Fine (f x) Q) : Fine (r >>= f) Q := by
  rcases h with e | ⟨x, e, hx⟩
  · rw [e]; exact .inl rfl
  · rw [e, Res.ok_bind]; exact k x hx

theorem Fine.ok {α : Type} {x : α} {P : α → Prop} (h : P x) : Fine (.ok x) P := .inr ⟨x, rfl, h⟩

theorem Fine.err {α : Type} {P : α → Prop} : Fine (.err : Res α) P := .inl rfl

theorem Fine.mono {α : Type} {r : Res α} {P Q : α → Prop} (h : Fine r P) (k : ∀ x, P x → Q x) : Fine r Q := by
  rcases h with e | ⟨x, e, hx⟩
  · exact .inl e
  · exact .inr ⟨x, e, k x hx⟩

theorem Fine.not_ub {α : Type} {r : Res α} {P : α → Prop} (h : Fine r P) : r ≠ .ub := by
  rcases h with e | ⟨x, e, -⟩ <;> rw [e] <;> simp

theorem Fine.get {α : Type} {r : Res α} {P : α → Prop} (h : Fine r P) {x : α} (e : r = .ok x) : P x := by
  rcases h with e' | ⟨y, e', hy⟩
  · rw [e'] at e; cases e
  · rw [e'] at e; cases e; exact hy

theorem Fine.of_not_ub {α : Type} {r : Res α} (h : r ≠ .ub) : Fine r fun _ => True := by
  cases r with
  | ok x => exact .ok trivial
  | err => exact .err
  | ub => exact absurd rfl h

namespace Dissect
open DwStr Spec

/-! ### Reading a name that is not there -/

theorem rawPeek_lt {raw : List UInt8} {i : Nat} (h : i < raw.length) : ∃ x, rawPeek raw i = .ok x :=
  ⟨raw[i], by unfold rawPeek; rw [List.getElem?_eq_getElem h]⟩

theorem dnameLabel_far {raw : List UInt8} (hr : 258 ≤ raw.length) : ∀ (n offset : Nat) (acc : List UInt8), acc.length ≤ 256 →
    Fine (dnameLabel raw 260 260 n offset acc) fun r => acc.length ≤ r.2.length ∧ r.2.length ≤ 256
  | 0, _, _, h => .ok ⟨Nat.le_refl _, h⟩
  | n + 1, offset, acc, h => by
    unfold dnameLabel
    split
    · exact .err
    · rename_i hc
      rw [if_neg (by omega)]
      obtain ⟨x, hx⟩ := rawPeek_lt (raw := raw) (i := offset + 1) (by omega)
      rw [hx, Res.ok_bind]
      split
      · exact .err
      · refine (dnameLabel_far hr n (offset + 1) (acc ++ [x]) (by simp; omega)).mono fun r hr => ?_
        simp only [List.length_append, List.length_singleton] at hr
        omega

theorem dnameLoop_far {raw : List UInt8} (hr : 258 ≤ raw.length) : ∀ (n offset : Nat) (acc : List UInt8), acc.length ≤ 256 →
    400 ≤ n + acc.length → Fine (dnameLoop raw 260 260 n offset acc) fun r => r.1.length ≤ 256
  | 0, _, _, h, h2 => by omega
  | n + 1, offset, acc, h, h2 => by
    unfold dnameLoop
    split
    · exact .err
    · rename_i hc
      rw [if_neg (by omega)]
      obtain ⟨x, hx⟩ := rawPeek_lt (raw := raw) (i := offset) (by omega)
      rw [hx, Res.ok_bind]
      split
      · exact .err
      split
      · exact .ok (by simp only [List.length_append, List.length_singleton]; omega)
      · refine (dnameLabel_far hr _ _ _ (by simp; omega)).bind fun r h3 => ?_
        simp only [List.length_append, List.length_singleton] at h3
        exact dnameLoop_far hr n _ _ h3.2 (by omega)

/-- In a block of at least 258 bytes a name can be looked for anywhere. -/
theorem getDname_far {raw : List UInt8} (hr : 258 ≤ raw.length) (o : Nat) :
    Fine (getDname raw o 260) fun r => r.1.length ≤ 256 := by
  unfold getDname
  simp only [gt_iff_lt, Nat.lt_irrefl, if_false]
  rw [if_neg (by omega)]
  exact dnameLoop_far hr 400 o [] (by simp) (by simp)

/-- Where reading a name stops before the end. -/
def Stops (l : List UInt8) : Prop :=
  ∃ ls c rest, l = encLabels ls ++ c :: rest ∧ LabelsOk ls ∧ ls.length < 200 ∧ (c = 0 ∨ 63 < c.toNat)

theorem dnameLoop_stops (raw : List UInt8) : ∀ (ls : List (List UInt8)) (n offset : Nat) (acc rest : List UInt8) (c : UInt8),
    ls.length < n → LabelsOk ls → (c = 0 ∨ 63 < c.toNat) → raw.drop offset = encLabels ls ++ c :: rest →
    dnameLoop raw 260 260 n offset acc ≠ .ub
  | [], n, offset, acc, rest, c, hn, _, hc, h => by
    obtain ⟨n, rfl⟩ : ∃ k, n = k + 1 := ⟨n - 1, by simp at hn; omega⟩
    unfold dnameLoop
    split
    · simp
    · rw [if_neg (by omega)]
      have hx : raw[offset]? = some c := by
        have := congrArg (·[0]?) h
        simpa [encLabels] using this
      have hp : rawPeek raw offset = .ok c := by unfold rawPeek; rw [hx]
      rw [hp, Res.ok_bind]
      rcases hc with rfl | hc
      · rw [if_neg (by decide), if_pos rfl]; simp
      · rw [if_pos (by rw [gt_iff_lt, UInt8.lt_iff_toNat_lt]; exact hc)]; simp
  | l :: ls, n, offset, acc, rest, c, hn, hok, hc, h => by
    obtain ⟨n, rfl⟩ : ∃ k, n = k + 1 := ⟨n - 1, by simp at hn; omega⟩
    have hl := hok l (by simp)
    have he : encLabels (l :: ls) = UInt8.ofNat l.length :: (l ++ encLabels ls) := by simp [encLabels]
    unfold dnameLoop
    split
    · simp
    · rw [if_neg (by omega)]
      have hx : raw[offset]? = some (UInt8.ofNat l.length) := by
        have := congrArg (·[0]?) h
        simpa [he] using this
      have hp : rawPeek raw offset = .ok (UInt8.ofNat l.length) := by unfold rawPeek; rw [hx]
      have hto : (UInt8.ofNat l.length).toNat = l.length := by rw [ofNat8_toNat]; omega
      have hr : raw.drop (offset + 1) = l ++ (encLabels ls ++ c :: rest) := by
        rw [← List.drop_drop, h, he]; simp
      rw [hp, Res.ok_bind, hto]
      split
      · simp
      split
      · simp
      · rcases dnameLabel_plain raw 260 260 (by omega) l offset (acc ++ [UInt8.ofNat l.length]) _ hr with e | e
        · rw [e]; simp
        · rw [e, Res.ok_bind]
          exact dnameLoop_stops raw ls n (offset + l.length + 1) _ rest c (by simpa using hn)
            (fun x hx => hok x (by simp [hx])) hc (by
              rw [show offset + l.length + 1 = (offset + 1) + l.length by omega, ← List.drop_drop, hr]; simp)

/-- A string at the beginning of which a name can be looked for. -/
def Legible (l : List UInt8) : Prop := Stops l ∨ 258 ≤ l.length

theorem Stops.append {l : List UInt8} (h : Stops l) (x : List UInt8) : Stops (l ++ x) := by
  obtain ⟨ls, c, rest, rfl, h2⟩ := h
  exact ⟨ls, c, rest ++ x, by simp, h2⟩

theorem Legible.append {l : List UInt8} (h : Legible l) (x : List UInt8) : Legible (l ++ x) := by
  rcases h with h | h
  · exact .inl (h.append x)
  · exact .inr (by simp; omega)

theorem buf_contents {s : DwStr} (hs : Usable s) : s.buf = s.contents ++ s.buf.drop s.len := by
  have h1 := hs.clen
  have h2 := Usable_buf hs
  have hs' := hs.sane
  unfold contents
  exact (List.take_append_drop _ _).symm

theorem getDname_legible {s : DwStr} (hs : Usable s) (h : Legible s.contents) : getDname s.buf 0 260 ≠ .ub := by
  have hb := buf_contents hs
  rcases h with ⟨ls, c, rest, h1, h2, h3, h4⟩ | h
  · unfold getDname
    simp only [gt_iff_lt, Nat.lt_irrefl, if_false]
    rw [if_neg (by omega)]
    refine dnameLoop_stops s.buf ls 400 0 [] (rest ++ s.buf.drop s.len) c (by omega) h2 h4 ?_
    rw [List.drop_zero]
    conv_lhs => rw [hb, h1]
    simp
  · refine (getDname_far ?_ 0).not_ub
    rw [hb, List.length_append]
    omega

theorem servers_legible {ns : DwStr} {bs : List (List UInt8)} (h : Servers ns bs) : Legible ns.contents := by
  obtain ⟨rest, e⟩ := h.begins
  left
  have := nameOk_length h.name
  have h1 := h.name.1
  refine ⟨bs, 0, rest, by rw [e]; simp [encName], h1, by omega, .inl rfl⟩

/-! ### Taking a piece out of a string -/

/-- `dw_substr` gives what is there, and perhaps the byte after it. -/
theorem substr_any {s : DwStr} (h : Usable s) (b a m : Nat) (junk : List UInt8) (hb : b < 1000000) (ha : a < 1000000)
    (hm : m < 100000000) :
    ∃ c stale, substr s b a m junk = .ok c ∧ Usable c ∧ c.max = a + m + 1 ∧
      c.contents = ((s.contents ++ [stale]).drop b).take a := by
  have hw := h.wf
  unfold WF at hw
  have hlt := h.lt
  have hlim := h.lim
  obtain ⟨c0, hc0⟩ := create_eq (size := a + m + 1) junk (by omega)
  obtain ⟨g1, g2, g3, _⟩ := create_ok hc0
  unfold WF at g1
  obtain ⟨k, hk1, hk2, hk3, hk4, hk5⟩ := substrLoop_eq s b a 0 c0 (by omega) (by omega) (by omega) (by omega)
  have hl0 : s.len < s.buf.length := by omega
  refine ⟨{ c0 with len := k, buf := splice c0.buf 0 ((s.buf.drop b).take k) }, s.buf[s.len], ?_, ?_, g3, ?_⟩
  · unfold substr
    have e : u32 ((a : Int) + m + 1) = a + m + 1 := by rw [u32_of (by omega) (by omega)]; omega
    simp only [h.sane, Bool.not_true, Bool.false_eq_true, if_false,
      if_neg (show ¬ ((b : Int) < 0) by omega), if_neg (show ¬ ((a : Int) < 0) by omega),
      if_pos (show (m : Int) ≥ 0 by omega), e]
    rw [if_neg (by omega)]
    simp only [hc0, Res.ok_bind, Int.toNat_natCast, hk5]
    simp
  · refine ⟨?_, by simp; omega, by simp; omega⟩
    unfold WF
    simp only
    rw [splice_length (by simp; omega)]; omega
  · have hl : ((s.buf.drop b).take k).length = k := by simp; omega
    have := splice_take c0.buf 0 ((s.buf.drop b).take k) (by omega)
    rw [hl] at this
    simp only [Nat.zero_add, List.take_zero, List.nil_append] at this
    simp only [contents, this]
    have e : s.buf.take s.len ++ [s.buf[s.len]] = s.buf.take (s.len + 1) := by
      rw [List.take_succ_eq_append_getElem hl0]
    rw [e]
    apply List.ext_getElem?
    intro j
    grind

end Dissect
end Dw
