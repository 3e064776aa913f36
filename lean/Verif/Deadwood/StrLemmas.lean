import Verif.Deadwood.StrModel

/-! Helper lemmas about the buffer primitives (no property theorems here). -/

namespace Dw

/-- Overwrite part of a list (lemma vocabulary only, not part of the model). -/
def splice {α : Type} (l : List α) (i : Nat) (xs : List α) : List α :=
  l.take i ++ (xs ++ l.drop (i + xs.length))

theorem splice_nil {α : Type} (l : List α) (i : Nat) : splice l i [] = l := by
  simp [splice]

theorem splice_length {α : Type} {l : List α} {i : Nat} {xs : List α}
    (h : i + xs.length ≤ l.length) : (splice l i xs).length = l.length := by
  simp [splice]; omega

theorem splice_set {α : Type} (l : List α) (i : Nat) (b : α) (xs : List α)
    (h : i < l.length) : splice (l.set i b) (i + 1) xs = splice l i (b :: xs) := by
  simp only [splice, List.length_cons]
  apply List.ext_getElem?
  intro j
  grind

theorem splice_take {α : Type} (l : List α) (i : Nat) (xs : List α)
    (h : i + xs.length ≤ l.length) :
    (splice l i xs).take (i + xs.length) = l.take i ++ xs := by
  apply List.ext_getElem?
  intro j
  simp only [splice]
  grind

theorem take_drop_succ {α : Type} (l : List α) (c n : Nat) (h : c < l.length) :
    (l.drop c).take (n + 1) = l[c] :: (l.drop (c + 1)).take n := by
  rw [List.drop_eq_getElem_cons h, List.take_succ_cons]

namespace DwStr

theorem sane_iff (s : DwStr) : s.sane = true ↔ s.len < s.max ∧ s.len ≤ 0x0fffffff := by
  simp [sane]

theorem contents_length {s : DwStr} (h : s.WF) (hs : s.sane = true) :
    s.contents.length = s.len := by
  rw [sane_iff] at hs; unfold WF at h; simp [contents]; omega

theorem peek_ok {s : DwStr} {i : Nat} (h : i < s.buf.length) :
    s.peek i = .ok s.buf[i] := by
  simp [peek, h]

theorem peek_contents {s : DwStr} {i : Nat} (h : i < s.contents.length) :
    s.peek i = .ok s.contents[i] := by
  have h2 : i < s.buf.length := by simp [contents] at h; omega
  rw [peek_ok h2]; simp [contents]

theorem poke_ok {s : DwStr} {i : Nat} (b : UInt8) (h : i < s.buf.length) :
    s.poke i b = .ok { s with buf := s.buf.set i b } := by
  simp [poke, h]

theorem cstrLoop_eq (add : List UInt8) : ∀ s : DwStr, s.len + add.length ≤ s.buf.length →
    cstrLoop add s = .ok { s with len := s.len + add.length, buf := splice s.buf s.len add } := by
  induction add with
  | nil => intro s _; simp [cstrLoop, splice_nil]
  | cons b bs ih =>
    intro s h
    simp only [List.length_cons] at h
    have hl : s.len < s.buf.length := by omega
    simp only [cstrLoop, poke_ok b hl, Res.ok_bind]
    rw [ih _ (by simp; omega)]
    simp only [List.length_cons, splice_set _ _ _ _ hl]
    congr 2; omega

theorem appendLoop_eq (src : DwStr) : ∀ (n c : Nat) (t : DwStr),
    c + n ≤ src.buf.length → t.len + c + n ≤ t.buf.length →
    appendLoop src n c t =
      .ok { t with buf := splice t.buf (t.len + c) ((src.buf.drop c).take n) } := by
  intro n
  induction n with
  | zero => intro c t _ _; simp [appendLoop, splice_nil]
  | succ n ih =>
    intro c t h1 h2
    have hc : c < src.buf.length := by omega
    have ht : t.len + c < t.buf.length := by omega
    simp only [appendLoop, peek_ok hc, Res.ok_bind, poke_ok _ ht]
    rw [ih (c + 1) _ (by omega) (by simp; omega)]
    simp only [← Nat.add_assoc, splice_set _ _ _ _ ht]
    rw [take_drop_succ _ _ _ hc]

theorem append_eq {a t : DwStr} (ha : a.WF) (ht : t.WF) (sa : a.sane = true)
    (st : t.sane = true) (hfit : t.len + a.len < t.max) :
    append a t = .ok { t with len := t.len + a.len, buf := splice t.buf t.len a.contents } := by
  have := (sane_iff a).1 sa
  have := (sane_iff t).1 st
  unfold WF at ha ht
  unfold append
  simp only [sa, st, Bool.not_true, Bool.false_eq_true, if_false, Nat.not_le.2 hfit]
  rw [appendLoop_eq _ _ _ _ (by omega) (by omega)]
  simp [contents]

theorem append_err {a t : DwStr} (sa : a.sane = true)
    (st : t.sane = true) (hfit : t.max ≤ t.len + a.len) :
    append a t = .err := by
  unfold append
  simp [sa, st, hfit]

theorem sameLoop_eq (a b : DwStr) : ∀ (n c : Nat), c + n ≤ a.buf.length → c + n ≤ b.buf.length →
    sameLoop a b n c = .ok (decide ((a.buf.drop c).take n = (b.buf.drop c).take n)) := by
  intro n
  induction n with
  | zero => intro c _ _; simp [sameLoop]
  | succ n ih =>
    intro c h1 h2
    have ha : c < a.buf.length := by omega
    have hb : c < b.buf.length := by omega
    simp only [sameLoop, peek_ok ha, peek_ok hb, Res.ok_bind]
    rw [take_drop_succ _ _ _ ha, take_drop_succ _ _ _ hb]
    by_cases hx : a.buf[c] = b.buf[c]
    · simp only [hx, ne_eq, not_true, if_false]
      rw [ih (c + 1) (by omega) (by omega)]
      simp
    · simp [hx]

theorem cstrReadLoop_eq (s : DwStr) : ∀ (n a : Nat), a + n ≤ s.buf.length →
    cstrReadLoop s n a = .ok ((s.buf.drop a).take n) := by
  intro n
  induction n with
  | zero => intro a _; simp [cstrReadLoop]
  | succ n ih =>
    intro a h
    have ha : a < s.buf.length := by omega
    simp only [cstrReadLoop, peek_ok ha, Res.ok_bind]
    rw [ih (a + 1) (by omega)]
    simp [take_drop_succ _ _ _ ha]

theorem u32_nat (n : Nat) (h : n < 4294967296) : u32 (n : Int) = n := by
  unfold u32; omega

theorem u32_of {i : Int} (h0 : 0 ≤ i) (h : i < 4294967296) : u32 i = i.toNat := by
  unfold u32; omega

theorem create_ok {size : Nat} {junk : List UInt8} {s : DwStr} (h : create size junk = .ok s) :
    s.WF ∧ s.len = 0 ∧ s.max = size ∧ size < 134217728 := by
  unfold create at h
  split at h
  · cases h
  · injection h with h
    subst h
    simp [WF]; omega

theorem create_eq {size : Nat} (junk : List UInt8) (h : size < 134217728) :
    ∃ s, create size junk = .ok s := by
  unfold create
  simp [Nat.not_le.2 h]

/-- What `substrLoop` copies, provided every index it touches is in the blocks. -/
theorem substrLoop_eq (obj : DwStr) (b : Nat) :
    ∀ (n c : Nat) (copy : DwStr), obj.len < obj.buf.length →
    copy.max ≤ copy.buf.length → b ≤ 2147483647 → c + n ≤ 2147483647 →
    ∃ k, k ≤ n ∧ (k = n ∨ (obj.len < b + c + k) ∨ copy.max ≤ c + k) ∧
      (k = 0 ∨ b + c + k ≤ obj.len + 1) ∧ (k = 0 ∨ c + k ≤ copy.max) ∧
      substrLoop obj (b : Int) n c copy =
        .ok (c + k, { copy with buf := splice copy.buf c ((obj.buf.drop (b + c)).take k) }) := by
  intro n
  induction n with
  | zero =>
    intro c copy _ _ _ _
    exact ⟨0, by simp [substrLoop, splice_nil]⟩
  | succ n ih =>
    intro c copy h1 h2 hb hc
    unfold substrLoop
    have hu : u32 ((c : Int) + b) = c + b := by
      rw [u32_of (by omega) (by omega)]; omega
    rw [hu]
    split
    · rename_i h
      refine ⟨0, by omega, ?_, by simp, by simp, by simp [splice_nil]⟩
      omega
    · rename_i h
      have hi : b + c < obj.buf.length := by omega
      have hcc : c < copy.buf.length := by omega
      have e : ((b : Int) + c).toNat = b + c := by omega
      rw [e, peek_ok hi]
      simp only [Res.ok_bind, poke_ok _ hcc]
      obtain ⟨k, hk1, hk2, hk3, hk4, hk5⟩ :=
        ih (c + 1) { copy with buf := copy.buf.set c obj.buf[b + c] } h1 (by simpa using h2) hb (by omega)
      refine ⟨k + 1, by omega, ?_, ?_, ?_, ?_⟩
      · simp at hk2; omega
      · omega
      · simp at hk4; right; omega
      · rw [hk5]
        simp only [splice_set _ _ _ _ hcc]
        congr 2
        · omega
        · simp only [← Nat.add_assoc]
          rw [List.drop_eq_getElem_cons hi, List.take_succ_cons]

end DwStr
end Dw
