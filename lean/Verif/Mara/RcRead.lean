import Verif.Mara.RcParse

/-!
# Reading a configuration file: lemmas
-/

namespace Mara.Rc

open Spec.MaraRc

/-- The names MaraDNS knows. -/
def known : Known := ⟨keywords, dkeywords, lowered⟩

/-- Settings as MaraDNS holds them. -/
def held (s : Settings) : Vars := ⟨s.value, s.entries⟩

theorem num_eq : numByte = digit := rfl

theorem lower_eq : lowerByte = lower := by
  funext c
  simp only [lowerByte, lower, and_comm, ge_iff_le]

theorem setK_held (s : Settings) (n x : List UInt8) :
    (held s).setK n x = held { s with value := Function.update s.value n x } := by
  simp only [held, Vars.setK, Vars.mk.injEq, and_true]
  funext m
  simp [Function.update_apply]

theorem setD_held (s : Settings) (n k x : List UInt8) (f : List UInt8 → Option (List UInt8))
    (h : s.entries n = some f) : (held s).setD n k x =
      held { s with entries := (Function.update s.entries n
        (some (Function.update f k (some x)))) } := by
  simp only [held, Vars.setD, Vars.mk.injEq, true_and]
  funext m
  by_cases e : m = n
  · subst e
    simp only [if_true, h, Option.map_some, Function.update_self, Option.some.injEq]
    funext i
    simp [Function.update_apply]
  · simp [e]

theorem newD_held (s : Settings) (n : List UInt8) :
    (held s).newD n = held { s with entries := (Function.update s.entries n
      (some fun _ => none)) } := by
  simp only [held, Vars.newD, Vars.mk.injEq, true_and]
  funext m
  simp [Function.update_apply]

theorem one_text (s : Settings) (num : Nat) (l n v : List UInt8) (a : Bool) (x : Stmt)
    (hx : x = .text n v a ∨ x = .number n v a) (hn : n ≠ []) (he : n ≠ b "ERROR")
    (hp : parseline l = .line 1 n (b "NOTHASH") v a) :
    oneLine ⟨held s, none⟩ num l = match x.does known s with
      | none => .exit
      | some s => .go ⟨held s, none⟩ := by
  have e : x.does known s = if n ∉ keywords then none
      else if a then
        if canAdd (s.value n) then
          some { s with value := Function.update s.value n (added (s.value n) v) }
        else none
      else some { s with value := Function.update s.value n v } := by
    rcases hx with rfl | rfl <;> rfl
  rw [e]
  simp only [oneLine, hp]
  simp only [show ¬ ((1 : Nat) = 2) by omega, false_and, if_false, true_and, if_true]
  by_cases hk : n ∈ keywords
  · rw [if_neg (by simpa using hk), if_neg (by simpa using hk)]
    cases a with
    | false => simp [writeK, setK_held]
    | true =>
      simp only [writeK, if_true]
      rw [if_neg (by simp)]
      have hh : (held s).k n = s.value n := rfl
      rw [hh]
      by_cases h0 : s.value n = []
      · have h1 : isNumeric (s.value n) = false := by simp [isNumeric, h0]
        have h2 : canAdd (s.value n) = false := by simp [canAdd, h0]
        rw [if_neg (by simp [h1]), if_pos (by simp [h0]), if_neg (by simp [h2])]
      · by_cases h1 : (s.value n).all digit = true
        · have h2 : isNumeric (s.value n) = true := by simp [isNumeric, h0, h1]
          have h3 : canAdd (s.value n) = false := by simp only [canAdd, num_eq, h1]; simp
          simp [h2, h3]
        · have h2 : isNumeric (s.value n) = false := by simp [isNumeric, h1]
          have h3 : canAdd (s.value n) = true := by
            simp only [canAdd, num_eq, Bool.not_eq_true] at h1 ⊢
            simp [h0, h1]
          rw [if_neg (by simp [h2]), if_neg (by simpa using h0), if_pos h3]
          by_cases hlen : (s.value n).length + v.length ≤ 255
          · have : append (s.value n) v = some (s.value n ++ v) := by
              rw [append, if_neg (by omega)]
            simp only [this, setK_held, added, if_pos hlen]
          · have : append (s.value n) v = none := by
              rw [append, if_pos (by omega)]
            simp only [this, added, if_neg hlen, Function.update_eq_self]
  · rw [if_pos hk, if_pos hk, if_neg he, if_pos hn]

theorem one_dict (s : Settings) (num : Nat) (l n : List UInt8)
    (hp : parseline l = .line 3 n (b "NOTHASH") [] false) :
    oneLine ⟨held s, none⟩ num l = match (Stmt.dict n).does known s with
      | none => .exit
      | some s => .go ⟨held s, none⟩ := by
  simp only [oneLine, hp, Stmt.does]
  simp only [show ¬ ((3 : Nat) = 2) by omega, show ¬ ((3 : Nat) = 1) by omega, false_and,
    if_false, if_true]
  by_cases h : n ∈ dkeywords ∧ s.entries n = none
  · rw [if_pos (by simpa [held] using h), if_pos (show n ∈ known.dicts ∧ _ from h), newD_held]
  · rw [if_neg (by simpa [held] using h),
      if_neg (show ¬ (n ∈ known.dicts ∧ _) from h)]

theorem one_entry (s : Settings) (num : Nat) (l n k v : List UInt8) (a : Bool)
    (he : n ≠ b "ERROR") (hp : parseline l = .line 2 n k v a) :
    oneLine ⟨held s, none⟩ num l = match (Stmt.entry n k v a).does known s with
      | none => .exit
      | some s => .go ⟨held s, none⟩ := by
  simp only [oneLine, hp, Stmt.does]
  simp only [true_and, if_true]
  by_cases hk : n ∈ dkeywords
  · rw [if_neg (by simpa using hk), if_neg (show ¬ n ∉ known.dicts from not_not.2 hk)]
    have hd : (if n ∈ known.domains then k.map lower else k) =
        (if n ∈ lowered then k.map lower else k) := rfl
    simp only [writeD, lower_eq, hd]
    generalize (if n ∈ lowered then k.map lower else k) = k'
    have hh : (held s).d n = s.entries n := rfl
    rw [hh]
    cases hf : s.entries n with
    | none => simp
    | some f =>
      simp only
      cases hv : f k' with
      | none =>
        cases a with
        | false => simp [setD_held s n k' v f hf]
        | true => simp
      | some old =>
        cases a with
        | false => simp
        | true =>
          simp only [Bool.true_eq_false, if_false]
          by_cases h1 : old.all numByte = true ∧ old ≠ []
          · have h2 : isNumeric old = true := by
              simp only [isNumeric, ← num_eq, h1.1]; simp [h1.2]
            rw [if_pos h1, if_pos h2]
          · have h2 : isNumeric old = false := by
              simp only [isNumeric, Bool.and_eq_false_iff, ← num_eq]
              by_cases h : old = []
              · left; simp [h]
              · right; simpa [h] using h1
            rw [if_neg h1, if_neg (by simp [h2])]
            by_cases hlen : old.length + v.length ≤ 255
            · have : append old v = some (old ++ v) := by
                rw [append, if_neg (by omega)]
              simp only [this, setD_held s n k' _ f hf, added, if_pos hlen]
            · have : append old v = none := by
                rw [append, if_pos (by omega)]
              have e1 : Function.update f k' (some old) = f := by
                rw [← hv, Function.update_eq_self]
              have e2 : Function.update s.entries n (some f) = s.entries := by
                rw [← hf, Function.update_eq_self]
              simp only [this, added, if_neg hlen, e1, e2]
  · rw [if_pos hk, if_pos (show n ∉ known.dicts from hk), if_neg he]

theorem one_note (s : Settings) (num : Nat) (l : List UInt8)
    (hp : parseline l = .line 1 [] (b "NOTHASH") [] false) :
    oneLine ⟨held s, none⟩ num l = .go ⟨held s, none⟩ := by
  have h1 : ([] : List UInt8) ∉ keywords := by decide +kernel
  have h2 : ([] : List UInt8) ≠ b "ERROR" := by decide +kernel
  simp only [oneLine, hp]
  simp [h1, h2]

/-- The name in a statement. -/
def name? : Stmt → Option (List UInt8)
  | .note => none
  | .text n _ _ | .number n _ _ | .dict n | .entry n _ _ _ => some n

theorem one_stmt (s : Settings) (num : Nat) (y : Layout) (hy : y.Ok) (x : Stmt) (hx : x.Ok)
    (hlen : (x.line y).length < 256) (he : name? x ≠ some (b "ERROR")) :
    oneLine ⟨held s, none⟩ num (x.line y) = match x.does known s with
      | none => .exit
      | some s => .go ⟨held s, none⟩ := by
  cases x with
  | note => exact one_note s num _ (parse_note y hy)
  | text n v a =>
    exact one_text s num _ n v a _ (.inl rfl) hx.1 (by simpa [name?] using he)
      (parse_text y hy n v a hx hlen)
  | number n v a =>
    exact one_text s num _ n v a _ (.inr rfl) hx.1 (by simpa [name?] using he)
      (parse_number y hy n v a hx hlen)
  | dict n =>
    exact one_dict s num _ n (parse_dict y hy n hx hlen)
  | entry n k v a =>
    exact one_entry s num _ n k v a (by simpa [name?] using he)
      (parse_entry y hy n k v a hx hlen)

theorem lines_stmts (s : Settings) (num : Nat) (f : List (Layout × Stmt))
    (h : ∀ x ∈ f, x.1.Ok ∧ x.2.Ok ∧ (x.2.line x.1).length < 256 ∧
      name? x.2 ≠ some (b "ERROR")) :
    lines ⟨held s, none⟩ num (f.map fun x => x.2.line x.1) =
      match meaning known s (f.map Prod.snd) with
      | none => .exit
      | some s => .go ⟨held s, none⟩ := by
  induction f generalizing s num with
  | nil => rfl
  | cons x f ih =>
    obtain ⟨h1, h2, h3, h4⟩ := h x (by simp)
    simp only [List.map_cons, lines, one_stmt s num x.1 h1 x.2 h2 h3 h4, meaning]
    cases x.2.does known s with
    | none => rfl
    | some s => exact ih s _ fun x hx => h x (by simp [hx])

/-! ## Every line -/

theorem search_bounds (s : UInt8 → Bool) (x : List UInt8) (i : Nat) :
    search s x i = -2 ∨ ((i : Int) ≤ search s x i ∧ search s x i < i + x.length) := by
  induction x generalizing i with
  | nil => simp [search]
  | cons c x ih =>
    rw [search]; split_ifs
    · right; simp; omega
    · rcases ih (i + 1) with h | h
      · exact .inl h
      · right; simp only [List.length_cons]; push_cast at h ⊢; omega

theorem mt_bounds (s : UInt8 → Bool) (l : List UInt8) (o : Int) (ho : 0 ≤ o) :
    mt s l o = -2 ∨ (o ≤ mt s l o ∧ mt s l o < l.length) := by
  have h : ¬ o < 0 := by omega
  simp only [mt, if_neg h]
  have := search_bounds s (l.drop o.toNat) o.toNat
  simp only [List.length_drop] at this
  omega

theorem wordEnd_bounds (l : List UInt8) (p : Int) (h0 : 0 ≤ p) (h : p < l.length) :
    p ≤ wordEnd l p ∧ wordEnd l p < l.length := by
  have := (List.takeWhile_sublist an (l := l.drop (p + 1).toNat)).length_le
  simp only [List.length_drop] at this
  rw [wordEnd]
  omega

theorem substr_some (l : List UInt8) (s n : Int) (h1 : 0 ≤ s) (h2 : 0 ≤ n) (h3 : s < l.length)
    (h4 : s + n ≤ l.length) (h5 : n < 256) : ∃ x, substr l s n = some x ∧ x <:+: l := by
  refine ⟨_, by rw [substr, if_neg (by omega)], ?_⟩
  exact (List.take_prefix _ _).isInfix.trans (List.drop_suffix _ _).isInfix

theorem substr_infix (l : List UInt8) (s n : Int) (x : List UInt8) (h : substr l s n = some x) :
    x <:+: l := by
  rw [substr] at h
  split_ifs at h
  cases h
  exact (List.take_prefix _ _).isInfix.trans (List.drop_suffix _ _).isInfix

theorem mt_none (s : UInt8 → Bool) (l : List UInt8) (h : mt s l 0 = -2) :
    ∀ c ∈ l, s c = false := by
  have h : search s l 0 = -2 := by simpa [mt] using h
  by_contra hc
  have : ∃ c ∈ l, s c = true := by simpa using hc
  have := search_within s l [] 0 this
  simp [h] at this

end Mara.Rc
