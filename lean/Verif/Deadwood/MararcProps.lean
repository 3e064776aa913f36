import Verif.Deadwood.MararcLemmas
import Verif.Deadwood.StrProps
import Verif.Deadwood.Str2Props
/-!
# C40, C41: the `dwood3rc` file
-/

namespace Dw
namespace Rc

open Spec.Rc

/-- Adding a byte to a string made with `dw_create(384)`, the result ignored, is `addTo` on the
contents. -/
theorem addchar_cap {t : DwStr} (ht : Usable t) (hm : t.max = 384) (b : UInt8) :
    ∃ t', DwStr.addcharIgn b t = .ok t' ∧ Usable t' ∧ t'.max = 384 ∧
      some t'.contents = addTo b (some t.contents) := by
  obtain ⟨h1, h2⟩ := Dw.addchar_exact b ht
  unfold DwStr.addcharIgn addTo
  simp only [Option.getD_some]
  by_cases h : t.contents.length + 1 < 384
  · obtain ⟨t', e, hu, hm', hc⟩ := h2 (by omega)
    exact ⟨t', by rw [e], hu, by omega, by rw [if_pos h, hc]⟩
  · exact ⟨t, by rw [h1 (by omega)], ht, hm, by rw [if_neg h]⟩

/-- **C41.**  With the automaton compiled from its text, a line is accepted exactly if it is of
one of the documented forms; what is left is the text after the line, and the strings taken
from it are those of the statement (each cut after 383 bytes). -/
theorem line_exact {t : List (List Entry)} (ht : initFsm = some t) (input rest : List UInt8) (A : Acts) :
    parseLine t input = .line A rest ↔
      ∃ (S : Stmt) (x : List UInt8), S.Text x ∧ input = x ++ rest ∧ A = actsOf S := by
  rw [initFsm_eq] at ht
  cases ht
  constructor
  · intro h
    cases input with
    | nil => simp [parseLine] at h
    | cons c l => exact acc_sound ((lineLoop_acc l c 0 {} A rest).1 h)
  · rintro ⟨S, x, hx, rfl, rfl⟩
    have h := acc_complete hx rest
    cases hi : x ++ rest with
    | nil => rw [hi] at h; simp [acc] at h
    | cons c l =>
      rw [hi] at h
      exact (lineLoop_acc l c 0 {} _ rest).2 h

/-- ` ip4["a.b"] += "1.2" # x` and a line end. -/
def exLine : List UInt8 := [32, 105, 112, 52, 91, 34, 97, 46, 98, 34, 93, 32, 43, 61, 32, 34, 49, 46, 50, 34,
  32, 35, 32, 120, 10]

example : parseLine table (exLine ++ [7]) = .line
    { name := some [105, 112, 52], key := some [97, 46, 98], str := some [49, 46, 50], plus := some [61] } [7] := by
  decide +kernel

/-- How long the parts of a statement are. -/
def Short : Stmt → Prop
  | .blank => True
  | .set name _ v => name.length ≤ 383 ∧
    (match v with | .num d => d.length ≤ 383 | .str s => s.length ≤ 383 | .empty => True)
  | .entry name key _ value => name.length ≤ 383 ∧ key.length ≤ 383 ∧ value.length ≤ 383
  | .call name file => name.length ≤ 383 ∧ file.length ≤ 383

theorem cut_short {l : List UInt8} (h : l.length ≤ 383) : cut l = if l = [] then none else some l := by
  unfold cut
  rw [List.take_of_length_le h]

theorem name_ne {n : List UInt8} (h : Name n) : n ≠ [] := by
  obtain ⟨c, t, rfl, _⟩ := h; simp

theorem key_ne {n : List UInt8} (h : Key n) : n ≠ [] := by
  rcases h with rfl | ⟨c, t, rfl, _⟩ <;> simp

/-- **C41**, the strings: for a statement whose parts have at most 383 bytes the name, key and
value used are exactly the parts of the line. -/
theorem parts_exact_partial {t : List (List Entry)} (ht : initFsm = some t) {S : Stmt} {x : List UInt8}
    (hx : S.Text x) (hs : Short S) (rest : List UInt8) : ∃ A, parseLine t (x ++ rest) = .line A rest ∧
      match S with
      | .blank => A.name = none
      | .set name plus v => A.name = some name ∧ A.key = none ∧ A.file = none ∧
          (A.plus ≠ none ↔ plus = true) ∧
          (match v with
          | .num d => A.num = some d ∧ A.str = none ∧ A.brace = none
          | .str s => A.str = some s ∧ A.num = none ∧ A.brace = none
          | .empty => A.brace ≠ none ∧ A.num = none ∧ A.str = none)
      | .entry name key plus value => A.name = some name ∧ A.key = some key ∧ A.str = some value ∧
          A.num = none ∧ A.brace = none ∧ A.file = none ∧ (A.plus ≠ none ↔ plus = true)
      | .call name file => A.name = some name ∧ A.file = (if file = [] then none else some file) ∧
          A.key = none ∧ A.str = none ∧ A.num = none ∧ A.brace = none := by
  refine ⟨actsOf S, (line_exact ht _ _ _).2 ⟨S, x, hx, rfl, rfl⟩, ?_⟩
  cases S with
  | blank => rfl
  | set name plus v =>
    obtain ⟨w, w1, w2, vt, e, _, hn, _, _, hv, _, _⟩ := hx
    simp only [actsOf]
    refine ⟨?_, trivial, trivial, ?_, ?_⟩
    · rw [cut_short hs.1, if_neg (name_ne hn)]
    · cases plus <;> simp
    · cases v with
      | num d => simp only; exact ⟨by rw [cut_short hs.2, if_neg hv.2.1], trivial, trivial⟩
      | str s => simp only; exact ⟨by rw [cut_short hs.2, if_neg hv.2.1], trivial, trivial⟩
      | empty => simp
  | entry name key plus value =>
    obtain ⟨w, w1, w2, w3, w4, w5, e, _, hn, _, _, hk, _, _, _, h0, _, _, _⟩ := hx
    simp only [actsOf]
    refine ⟨?_, ?_, ?_, trivial, trivial, trivial, by cases plus <;> simp⟩
    · rw [cut_short hs.1, if_neg (name_ne hn)]
    · rw [cut_short hs.2.1, if_neg (key_ne hk)]
    · rw [cut_short hs.2.2, if_neg h0]
  | call name file =>
    obtain ⟨w, e, _, hn, _, _, _⟩ := hx
    simp only [actsOf]
    exact ⟨by rw [cut_short hs.1, if_neg (name_ne hn)], cut_short hs.2, trivial, trivial, trivial, trivial⟩

/-- Finding: a longer string is shortened without a word: whatever the text after its 383rd
byte, the same value is used. -/
theorem long_string_cut {t : List (List Entry)} (ht : initFsm = some t) {name s s' x x' : List UInt8}
    (hx : (Stmt.set name false (.str s)).Text x) (hx' : (Stmt.set name false (.str s')).Text x')
    (h : s.take 383 = s'.take 383) (rest : List UInt8) :
    parseLine t (x ++ rest) = parseLine t (x' ++ rest) := by
  rw [(line_exact ht _ _ _).2 ⟨_, x, hx, rfl, rfl⟩, (line_exact ht _ _ _).2 ⟨_, x', hx', rfl, rfl⟩]
  obtain ⟨_, _, _, _, _, _, _, _, _, hv, _, _⟩ := hx
  obtain ⟨_, _, _, _, _, _, _, _, _, hv', _, _⟩ := hx'
  simp only [actsOf, cut]
  rw [if_neg hv.2.1, if_neg hv'.2.1, h]

/-! ## What a statement does -/

/-- The number a string of digits stands for. -/
def decimal (d : List UInt8) : Nat := d.foldl (fun v c => v * 10 + (c.toNat - 48)) 0

theorem atoiLoop_decimal : ∀ (d : List UInt8) (n v : Nat), d.length < n →
    d.foldl (fun v c => v * 10 + (c.toNat - 48)) v ≤ 2147483647 →
    atoiLoop n v d = .ok (d.foldl (fun v c => v * 10 + (c.toNat - 48)) v)
  | [], n, v, hn, _ => by
    cases n with
    | zero => simp at hn
    | succ n => rfl
  | c :: d, n, v, hn, hv => by
    cases n with
    | zero => simp at hn
    | succ n =>
      have mono : ∀ (l : List UInt8) (v : Nat), v ≤ l.foldl (fun v c => v * 10 + (c.toNat - 48)) v := by
        intro l
        induction l with
        | nil => intro v; exact Nat.le_refl v
        | cons a l ih =>
          intro v
          exact Nat.le_trans (show v ≤ v * 10 + (a.toNat - 48) by omega) (ih _)
      simp only [List.foldl_cons] at hv ⊢
      have h1 := mono d (v * 10 + (c.toNat - 48))
      rw [atoiLoop, if_neg (by omega)]
      exact atoiLoop_decimal d n _ (by simpa using hn) hv

/-- **C41**, numbers: `name = digits` sets the number with that name to the decimal value, and
nothing else; an unknown name stops the program. -/
theorem set_number (c : Conf) {name d : List UInt8} (hn : Name name) (hl : name.length ≤ 383)
    (hd0 : d ≠ []) (hdl : d.length < 100) (hv : decimal d ≤ 2147483647) :
    setKeys (actsOf (.set name false (.num d))) c =
      match grepParams name keyN with
      | none => .fatal
      | some i => .ok { c with n := c.n.set i (decimal d) } := by
  have e : actsOf (.set name false (.num d)) = { name := some name, num := some d } := by
    simp [actsOf, cut_short hl, cut_short (show d.length ≤ 383 by omega), name_ne hn, hd0]
  have e2 : atoiLoop 100 0 d = .ok (decimal d) := atoiLoop_decimal d 100 0 hdl hv
  rw [e]
  simp only [setKeys, setTodo, Option.getD_some]
  simp only [e2]
  cases grepParams name keyN <;> simp

example : setKeys (actsOf (.set (nameBytes "maxprocs") false (.num [52, 48]))) Conf.init =
    .ok { Conf.init with n := Conf.init.n.set 0 40 } := by decide +kernel

/-- Finding: a number that does not fit is undefined behaviour (signed overflow), not an error. -/
theorem big_number_ub :
    setKeys (actsOf (.set (nameBytes "maxprocs") false (.num [50, 49, 52, 55, 52, 56, 51, 54, 52, 56]))) Conf.init =
      .ub := by decide +kernel

/-- **C41**, strings: `name = "text"` sets the string with that name once. -/
theorem set_string (c : Conf) {name s : List UInt8} (hn : Name name) (hl : name.length ≤ 383)
    (hs0 : s ≠ []) (hsl : s.length ≤ 383) :
    setKeys (actsOf (.set name false (.str s))) c =
      match grepParams name keyS with
      | none => .fatal
      | some i => match (c.s[i]?).join with
        | none => .ok { c with s := c.s.set i (some s) }
        | some _ => .fatal := by
  have e : actsOf (.set name false (.str s)) = { name := some name, str := some s } := by
    simp [actsOf, cut_short hl, cut_short hsl, name_ne hn, hs0]
  rw [e]
  simp only [setKeys, setTodo, Option.getD_some]
  cases grepParams name keyS with
  | none => simp
  | some i => cases h : (c.s[i]?).join <;> simp [h]

example : setKeys (actsOf (.set (nameBytes "cache_file") false (.str [97]))) Conf.init =
    .ok { Conf.init with s := Conf.init.s.set 5 (some [97]) } := by decide +kernel

/-- **C41**, strings: `name += "text"` adds to a string that has been set, if the whole then has
at most 383 bytes. -/
theorem add_string_partial (c : Conf) {name s old : List UInt8} {i : Nat} (hn : Name name)
    (hl : name.length ≤ 383) (hs0 : s ≠ []) (hi : grepParams name keyS = some i)
    (hold : c.s[i]? = some (some old)) (hlen : old.length + s.length ≤ 383) :
    setKeys (actsOf (.set name true (.str s))) c = .ok { c with s := c.s.set i (some (old ++ s)) } := by
  have e : actsOf (.set name true (.str s)) = { name := some name, str := some s, plus := some [61] } := by
    simp [actsOf, cut_short hl, cut_short (show s.length ≤ 383 by omega), name_ne hn, hs0]
  rw [e]
  simp only [setKeys, setTodo, Option.getD_some]
  simp [hi, hold, appendCap, show old.length + s.length < 384 by omega]

/-- Finding: otherwise the addition is dropped without a word. -/
theorem add_string_lost (c : Conf) {name s old : List UInt8} {i : Nat} (hn : Name name)
    (hl : name.length ≤ 383) (hs0 : s ≠ []) (hsl : s.length ≤ 383) (hi : grepParams name keyS = some i)
    (hold : c.s[i]? = some (some old)) (hlen : 383 < old.length + s.length) :
    setKeys (actsOf (.set name true (.str s))) c = .ok { c with s := c.s.set i (some old) } := by
  have e : actsOf (.set name true (.str s)) = { name := some name, str := some s, plus := some [61] } := by
    simp [actsOf, cut_short hl, cut_short hsl, name_ne hn, hs0]
  rw [e]
  simp only [setKeys, setTodo, Option.getD_some]
  simp [hi, hold, appendCap, show ¬ (old.length + s.length < 384) by omega]

example : Name (nameBytes "recursive_acl") ∧ grepParams (nameBytes "recursive_acl") keyS = some 3 := by
  refine ⟨⟨114, [101, 99, 117, 114, 115, 105, 118, 101, 95, 97, 99, 108], by decide +kernel, by decide, ?_⟩,
    by decide +kernel⟩
  unfold All
  decide

/-- **C41**, dictionaries: `name = {}` makes an empty dictionary, once; and
`name["key"] = "value"` on a dictionary that has been made gives the key that value and leaves
the other keys alone. -/
theorem dict_entry (c : Conf) {name key value : List UInt8} {i : Nat} {m : List (List UInt8 × List UInt8)}
    (hn : Name name) (hl : name.length ≤ 383) (hk : Key key) (hkl : key.length ≤ 383) (hv0 : value ≠ [])
    (hvl : value.length ≤ 383) (hi : grepParams name keyD = some i) (hm : c.d[i]? = some (some m)) :
    ∃ m', setKeys (actsOf (.entry name key false value)) c = .ok { c with d := c.d.set i (some m') } ∧
      fetch m' key = some value ∧ ∀ k, k ≠ key → fetch m' k = fetch m k := by
  have e : actsOf (.entry name key false value) = { name := some name, key := some key, str := some value } := by
    simp [actsOf, cut_short hl, cut_short hkl, cut_short hvl, name_ne hn, key_ne hk, hv0]
  rw [e]
  refine ⟨(key, value) :: m, ?_, ?_, ?_⟩
  · simp only [setKeys, setTodo, Option.getD_some]
    simp [hi, dictAdd, hm]
  · simp [fetch]
  · intro k hk
    simp [fetch, List.find?_cons, Ne.symm hk]

theorem dict_init (c : Conf) {name : List UInt8} {plus : Bool} {i : Nat} (hn : Name name)
    (hl : name.length ≤ 383) (hi : grepParams name keyD = some i) :
    setKeys (actsOf (.set name plus .empty)) c =
      match (c.d[i]?).join with
      | none => .ok { c with d := c.d.set i (some []) }
      | some _ => .fatal := by
  have e : actsOf (.set name plus .empty) =
      { name := some name, brace := some [123], plus := if plus then some [61] else none } := by
    simp [actsOf, cut_short hl, name_ne hn]
  rw [e]
  simp only [setKeys, setTodo, Option.getD_some]
  cases h : (c.d[i]?).join <;> simp [hi, dictAdd, h]

/-- **C41**, dictionaries: an entry in a dictionary that has not been made, or with a name that
is none, stops the program; and so does adding to a missing entry. -/
theorem dict_entry_fatal (c : Conf) {name key value : List UInt8} {plus : Bool} (hn : Name name)
    (hl : name.length ≤ 383) (hk : Key key) (hkl : key.length ≤ 383) (hv0 : value ≠ [])
    (hvl : value.length ≤ 383)
    (h : grepParams name keyD = none ∨ ∃ i, grepParams name keyD = some i ∧
      ((c.d[i]?).join = none ∨ plus = true ∧ ∃ m, (c.d[i]?).join = some m ∧ fetch m key = none)) :
    setKeys (actsOf (.entry name key plus value)) c = .fatal := by
  have e : actsOf (.entry name key plus value) =
      { name := some name, key := some key, str := some value
        plus := if plus then some [61] else none } := by
    simp [actsOf, cut_short hl, cut_short hkl, cut_short hvl, name_ne hn, key_ne hk, hv0]
  rw [e]
  simp only [setKeys, setTodo, Option.getD_some]
  rcases h with h | ⟨i, hi, h | ⟨rfl, m, hm, hf⟩⟩
  · cases plus <;> simp [h]
  · cases plus <;> simp [hi, dictAdd, h]
  · simp [hi, dictAdd, hm, hf]

example : setKeys (actsOf (.entry (nameBytes "ip4") [46] false [49])) Conf.init = .fatal := by decide +kernel

/-! ## C40: the files that are read -/

/-- A byte a cleaned name is made of. -/
def CleanByte (c : UInt8) : Prop := lower c ∨ c = 95 ∨ c = 47

theorem clean_byte : ∀ c : UInt8, CleanByte (if (c < 97 ∨ c > 122) ∧ c ≠ 95 ∧ c ≠ 47 then 95 else c) := by
  unfold CleanByte
  exact byte_all (by decide +kernel)

theorem cleanLoop_all : ∀ (n : Nat) (l : List UInt8), ∀ c ∈ (cleanLoop n l).take n, CleanByte c
  | 0, l, c, h => by simp at h
  | n + 1, [], c, h => by simp [cleanLoop] at h
  | n + 1, a :: l, c, h => by
    rw [cleanLoop, List.take_succ_cons, List.mem_cons] at h
    rcases h with rfl | h
    · exact clean_byte a
    · exact cleanLoop_all n l c h

theorem cleanLoop_length : ∀ (n : Nat) (l : List UInt8), (cleanLoop n l).length = l.length
  | 0, _ => rfl
  | n + 1, [] => rfl
  | n + 1, a :: l => by simp [cleanLoop, cleanLoop_length n l]

theorem cleanName_length (l : List UInt8) : (cleanName l).length = l.length := by
  cases l with
  | nil => rfl
  | cons c l => rw [cleanName, cleanLoop_length]; simp

theorem cleanName_head (l : List UInt8) : (cleanName l).head? ≠ some 47 := by
  cases l with
  | nil => simp [cleanName]
  | cons c l =>
    rw [cleanName, cleanLoop]
    simp only [List.head?_cons, ne_eq, Option.some.injEq]
    by_cases h : c = 47
    · subst h; decide
    · rw [if_neg h]
      split
      · decide
      · exact h

/-- The first 200 bytes of a cleaned name are harmless. -/
theorem cleanName_all (l : List UInt8) : ∀ c ∈ (cleanName l).take 200, CleanByte c := by
  cases l with
  | nil => simp [cleanName]
  | cons c l => exact cleanLoop_all 200 _

/-- A name which is relative and which has no dots in its first 200 bytes. -/
def Inside (f : List UInt8) : Prop := f.head? ≠ some 47 ∧ ∀ c ∈ f.take 200, c ≠ 46

theorem cleanName_inside (l : List UInt8) : Inside (cleanName l) := by
  refine ⟨cleanName_head l, fun c hc => ?_⟩
  rintro rfl
  rcases cleanName_all l 46 hc with h | h | h
  · exact absurd h (by decide)
  · exact absurd h (by decide)
  · exact absurd h (by decide)

/-- All names opened from here on are cleaned names. -/
def Grows (w w' : World) : Prop :=
  w.depth ≤ w'.depth ∧ ∃ l, w'.opened = l ++ w.opened ∧ ∀ f ∈ l, ∃ raw, f = cleanName raw

theorem Grows.refl (w : World) : Grows w w := ⟨Nat.le_refl _, [], rfl, by simp⟩

theorem Grows.trans {a b c : World} (h1 : Grows a b) (h2 : Grows b c) : Grows a c := by
  obtain ⟨d1, l1, e1, h1⟩ := h1
  obtain ⟨d2, l2, e2, h2⟩ := h2
  refine ⟨Nat.le_trans d1 d2, l2 ++ l1, by rw [e2, e1, List.append_assoc], ?_⟩
  intro f hf
  rcases List.mem_append.1 hf with h | h
  · exact h2 f h
  · exact h1 f h

mutual
theorem parseFile_opened (t : List (List Entry)) (fs : List UInt8 → Option (List UInt8)) :
    ∀ (fuel : Nat) (name : List UInt8) (w : World),
      w.depth ≤ (parseFile t fs fuel name w).world.depth ∧
      ∃ l, (parseFile t fs fuel name w).world.opened = l ++ w.opened ∧
        ∀ f ∈ l, f = name ∨ ∃ raw, f = cleanName raw
  | 0, name, w => by
    rw [parseFile]
    exact ⟨Nat.le_refl _, [], rfl, by simp⟩
  | fuel + 1, name, w => by
    rw [parseFile]
    split
    · exact ⟨Nat.le_refl _, [], rfl, by simp⟩
    · simp only
      cases hb : fs name with
      | none => exact ⟨Nat.le_succ _, [name], rfl, by simp⟩
      | some bytes =>
        simp only
        obtain ⟨hd, l, hl, hf⟩ := parseLines_opened t fs fuel bytes.length bytes
          { w with depth := w.depth + 1, opened := name :: w.opened }
        cases ho : parseLines t fs fuel bytes.length bytes
          { w with depth := w.depth + 1, opened := name :: w.opened } with
        | ok w' =>
          rw [ho] at hd hl
          simp only [Outcome.world] at hd hl ⊢
          refine ⟨by omega, l ++ [name], by rw [hl]; simp, ?_⟩
          intro f h
          rcases List.mem_append.1 h with h | h
          · exact Or.inr (hf f h)
          · exact Or.inl (by simpa using h)
        | fatal w' =>
          rw [ho] at hd hl
          simp only [Outcome.world] at hd hl ⊢
          refine ⟨by omega, l ++ [name], by rw [hl]; simp, ?_⟩
          intro f h
          rcases List.mem_append.1 h with h | h
          · exact Or.inr (hf f h)
          · exact Or.inl (by simpa using h)
        | ub w' =>
          rw [ho] at hd hl
          simp only [Outcome.world] at hd hl ⊢
          refine ⟨by omega, l ++ [name], by rw [hl]; simp, ?_⟩
          intro f h
          rcases List.mem_append.1 h with h | h
          · exact Or.inr (hf f h)
          · exact Or.inl (by simpa using h)
termination_by fuel => (fuel, 0)

theorem parseLines_opened (t : List (List Entry)) (fs : List UInt8 → Option (List UInt8)) :
    ∀ (fuel n : Nat) (bytes : List UInt8) (w : World), Grows w (parseLines t fs fuel n bytes w).world
  | fuel, n, bytes, w => by
    rw [parseLines]
    cases hp : parseLine t bytes with
    | end_ => exact Grows.refl w
    | bad => exact Grows.refl w
    | cut => exact Grows.refl w
    | line a rest =>
      simp only
      cases n with
      | zero => exact Grows.refl w
      | succ n =>
        simp only
        have other : Grows w (match setKeys a w.conf with
            | .fatal => Outcome.fatal w
            | .ub => .ub w
            | .ok c => parseLines t fs fuel n rest { w with conf := c }).world := by
          cases setKeys a w.conf with
          | fatal => exact Grows.refl w
          | ub => exact Grows.refl w
          | ok c =>
            have := parseLines_opened t fs fuel n rest { w with conf := c }
            exact this
        cases ht : setTodo a with
        | exec name file =>
          simp only
          split
          · exact Grows.refl w
          · have h1 : Grows w (parseFile t fs fuel (cleanName file) w).world := by
              obtain ⟨hd, l, hl, hf⟩ := parseFile_opened t fs fuel (cleanName file) w
              refine ⟨hd, l, hl, fun f h => ?_⟩
              rcases hf f h with h | h
              · exact ⟨file, h⟩
              · exact h
            cases ho : parseFile t fs fuel (cleanName file) w with
            | ok w' =>
              rw [ho] at h1
              exact h1.trans (parseLines_opened t fs fuel n rest w')
            | fatal w' => rw [ho] at h1; exact h1
            | ub w' => rw [ho] at h1; exact h1
        | bad => exact other
        | nothing => exact other
        | setStr => exact other
        | addStr => exact other
        | setDict => exact other
        | addDict => exact other
        | setNum => exact other
        | initDict => exact other
termination_by fuel n => (fuel, n + 1)
end

/-- The reading of the main file, `dwm_parse_mararc`, DwMararc.c:829-836. -/
def parseMararc (t : List (List Entry)) (fs : List UInt8 → Option (List UInt8)) (name : List UInt8) : Outcome :=
  parseFile t fs 10 name { conf := Conf.init, depth := 0, opened := [] }

/-- **C40.**  Whatever the configuration says, every file opened besides the main one has a
relative name, and there is no dot among the first 200 bytes of its name; so a name of at most
200 bytes cannot lead out of the directory. -/
theorem execfile_inside_partial (t : List (List Entry)) (fs : List UInt8 → Option (List UInt8))
    (main : List UInt8) : ∀ f ∈ (parseMararc t fs main).world.opened, f = main ∨
      (f.head? ≠ some 47 ∧ (∀ c ∈ f.take 200, c ≠ 46) ∧ (f.length ≤ 200 → (46 : UInt8) ∉ f)) := by
  obtain ⟨_, l, hl, hf⟩ := parseFile_opened t fs 10 main { conf := Conf.init, depth := 0, opened := [] }
  intro f h
  rw [parseMararc, hl, List.append_nil] at h
  rcases hf f h with h | ⟨raw, rfl⟩
  · exact Or.inl h
  · refine Or.inr ⟨(cleanName_inside raw).1, (cleanName_inside raw).2, fun hlen hmem => ?_⟩
    refine (cleanName_inside raw).2 46 ?_ rfl
    rw [List.take_of_length_le hlen]
    exact hmem

/-- `../etc/x` becomes `___etc/x`... -/
example : cleanName [46, 46, 47, 101, 116, 99, 47, 46] = [95, 95, 47, 101, 116, 99, 47, 95] := by decide

/-- Finding: dots after the first 200 bytes stay: 200 letters and `/../../x` are left as they
are (and such a name fits in the 383 bytes of an argument). -/
theorem execfile_escapes :
    cleanName (List.replicate 200 97 ++ [47, 46, 46, 47, 46, 46, 47, 120]) =
      List.replicate 200 97 ++ [47, 46, 46, 47, 46, 46, 47, 120] := by decide +kernel

/-- The reading ends by itself: nesting is bounded by the code's own depth count, so a file may
even include itself. -/
theorem nesting_bounded (t : List (List Entry)) (fs : List UInt8 → Option (List UInt8)) :
    ∀ (fuel fuel' : Nat) (name : List UInt8) (w : World), 10 ≤ fuel + w.depth → 10 ≤ fuel' + w.depth →
      parseFile t fs fuel name w = parseFile t fs fuel' name w := by
  have lines : ∀ (fuel fuel' : Nat),
      (∀ (name : List UInt8) (w : World), 10 ≤ fuel + w.depth → 10 ≤ fuel' + w.depth →
        parseFile t fs fuel name w = parseFile t fs fuel' name w) →
      ∀ (n : Nat) (bytes : List UInt8) (w : World), 10 ≤ fuel + w.depth → 10 ≤ fuel' + w.depth →
        parseLines t fs fuel n bytes w = parseLines t fs fuel' n bytes w := by
    intro fuel fuel' ih n
    induction n with
    | zero =>
      intro bytes w _ _
      rw [parseLines, parseLines]
    | succ n ihn =>
      intro bytes w h1 h2
      rw [parseLines, parseLines]
      cases hp : parseLine t bytes with
      | end_ => rfl
      | bad => rfl
      | cut => rfl
      | line a rest =>
        simp only
        have hrest : ∀ c : Conf, parseLines t fs fuel n rest { w with conf := c } =
            parseLines t fs fuel' n rest { w with conf := c } := fun c => ihn rest _ h1 h2
        cases ht : setTodo a with
        | exec name file =>
          simp only
          split
          · rfl
          · rw [ih (cleanName file) w h1 h2]
            cases ho : parseFile t fs fuel' (cleanName file) w with
            | ok w' =>
              have := (parseFile_opened t fs fuel' (cleanName file) w).1
              rw [ho] at this
              simp only [Outcome.world] at this
              exact ihn rest w' (by omega) (by omega)
            | fatal w' => rfl
            | ub w' => rfl
        | _ => simp only [hrest]
  intro fuel
  induction fuel with
  | zero =>
    intro fuel' name w h1 h2
    cases fuel' with
    | zero => rfl
    | succ fuel' =>
      rw [parseFile, parseFile, if_pos (by omega)]
  | succ fuel ih =>
    intro fuel' name w h1 h2
    cases fuel' with
    | zero => rw [parseFile, parseFile, if_pos (by omega)]
    | succ fuel' =>
      rw [parseFile, parseFile]
      split
      · rfl
      · simp only
        cases hb : fs name with
        | none => rfl
        | some bytes =>
          simp only
          rw [lines fuel fuel' (fun n w => ih fuel' n w) bytes.length bytes _
            (by show 10 ≤ fuel + (w.depth + 1); omega) (by show 10 ≤ fuel' + (w.depth + 1); omega)]

/-- Finding: a file that cannot be opened is passed over without a word and takes one off the
nesting that is left, for good; after nine of them no file is opened any more. -/
theorem missing_file_counts (t : List (List Entry)) (fs : List UInt8 → Option (List UInt8)) (fuel : Nat)
    (name : List UInt8) (w : World) (h : fs name = none) :
    parseFile t fs (fuel + 1) name w =
      .ok (if w.depth ≤ 8 then { w with depth := w.depth + 1, opened := name :: w.opened } else w) := by
  rw [parseFile]
  by_cases hd : w.depth > 8
  · rw [if_pos hd, if_neg (by omega)]
  · rw [if_neg hd, if_pos (by omega)]
    simp [h]

/-- Reading a line takes at least one byte, so the number of lines is bounded by the bytes. -/
theorem line_shorter {t : List (List Entry)} (ht : initFsm = some t) {input rest : List UInt8} {A : Acts}
    (h : parseLine t input = .line A rest) : rest.length < input.length := by
  obtain ⟨S, x, hx, rfl, _⟩ := (line_exact ht _ _ _).1 h
  rw [List.length_append]
  have endpos : ∀ e, End e → 0 < e.length := by
    intro e he
    obtain ⟨c, t, rfl, _⟩ := end_head he
    simp
  have : 0 < x.length := by
    cases S with
    | blank =>
      rcases hx with hx | ⟨w, t, e, _, _, _, rfl⟩
      · exact endpos x hx
      · simp; omega
    | set name plus v =>
      obtain ⟨w, w1, w2, vt, e, _, _, _, _, _, he, rfl⟩ := hx
      have := endpos e he
      simp; omega
    | entry name key plus value =>
      obtain ⟨w, w1, w2, w3, w4, w5, e, _, _, _, _, _, _, _, _, _, _, _, rfl⟩ := hx
      simp; omega
    | call name file =>
      obtain ⟨w, e, _, _, _, _, rfl⟩ := hx
      simp; omega
  omega

end Rc
end Dw
