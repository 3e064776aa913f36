import Verif.Deadwood.MararcProps
import Verif.Spec.RcDefaults

/-!
# Parameters that are not set

The value of a numeric parameter which no line of the files that can be read sets (C65), and
what is refused (C41).
-/

namespace Dw
namespace Rc
open Spec.Rc

/-- The value of the numeric parameter with this name. -/
def Conf.number (c : Conf) (name : String) : Option Nat := (grepParams (nameBytes name) keyN).bind (c.n[·]?)

theorem dictAdd_n {num : Nat} {key value : Option (List UInt8)} {todo : Todo} {c c' : Conf}
    (h : dictAdd num key value todo c = .ok c') : c'.n = c.n := by
  unfold dictAdd at h
  split at h
  · cases h
  · split at h
    · split at h
      · cases h; rfl
      · cases h
    · split at h
      · cases h
      · simp only at h
        split at h
        · cases h; rfl
        · split at h
          · cases h
          · cases h; rfl

/-- Setting one parameter changes no number with another name. -/
theorem setKeys_number {a : Acts} {c c' : Conf} {name : String} (h : setKeys a c = .ok c')
    (hn : a.name ≠ some (nameBytes name)) : c'.number name = c.number name := by
  have key : c'.n = c.n ∨ ∃ i v nm, a.name = some nm ∧ grepParams nm keyN = some i ∧ c'.n = c.n.set i v := by
    unfold setKeys at h
    simp only at h
    cases ht : setTodo a with
    | nothing => rw [ht] at h; cases h; exact .inl rfl
    | exec _ _ => rw [ht] at h; cases h; exact .inl rfl
    | bad => rw [ht] at h; cases h
    | setDict =>
      rw [ht] at h; simp only at h
      split at h
      · cases h
      · exact .inl (dictAdd_n h)
    | addDict =>
      rw [ht] at h; simp only at h
      split at h
      · cases h
      · exact .inl (dictAdd_n h)
    | initDict =>
      rw [ht] at h; simp only at h
      split at h
      · cases h
      · exact .inl (dictAdd_n h)
    | setNum =>
      rw [ht] at h; simp only at h
      cases hname : a.name with
      | none => simp [setTodo, hname] at ht
      | some nm =>
        rw [hname] at h
        simp only [Option.getD_some] at h
        split at h
        · cases h
        · cases h
        · split at h
          · cases h
          · rename_i i hi
            cases h
            exact .inr ⟨i, _, nm, rfl, hi, rfl⟩
    | setStr =>
      rw [ht] at h; simp only at h
      split at h
      · cases h
      · split at h
        · cases h; exact .inl rfl
        · cases h
    | addStr =>
      rw [ht] at h; simp only at h
      split at h
      · cases h
      · split at h
        · cases h
        · cases h; exact .inl rfl
  rcases key with e | ⟨i, v, nm, ha, hi, e⟩
  · unfold Conf.number; rw [e]
  · unfold Conf.number
    rw [e]
    cases hj : grepParams (nameBytes name) keyN with
    | none => rfl
    | some j =>
      simp only [Option.bind_some]
      have : i ≠ j := by
        rintro rfl
        unfold grepParams at hi hj
        rw [List.findIdx?_eq_some_iff_getElem] at hi hj
        obtain ⟨_, h1, _⟩ := hi
        obtain ⟨_, h2, _⟩ := hj
        rw [beq_iff_eq] at h1 h2
        exact hn (by rw [ha, ← h1, h2])
      rw [List.getElem?_set_ne this]

/-- Some line of the file with these bytes, wherever it may begin, sets the parameter. -/
def Sets (t : List (List Entry)) (name : String) (bytes : List UInt8) : Prop :=
  ∃ pre post a rest, bytes = pre ++ post ∧ parseLine t post = .line a rest ∧ a.name = some (nameBytes name)

theorem lineLoop_suffix (t : List (List Entry)) : ∀ (l : List UInt8) (c : UInt8) (s : Nat) (a A : Acts) (r : List UInt8),
    lineLoop t l c s a = .line A r → ∃ x, l = x ++ r := by
  intro l
  induction l with
  | nil =>
    intro c s a A r h
    rw [lineLoop] at h
    split at h
    · cases h
    · split at h
      · cases h; exact ⟨[], rfl⟩
      · simp only at h; split at h <;> cases h
  | cons d l ih =>
    intro c s a A r h
    rw [lineLoop] at h
    split at h
    · cases h
    · split at h
      · cases h; exact ⟨[], rfl⟩
      · simp only at h
        obtain ⟨x, hx⟩ := ih _ _ _ _ _ h
        exact ⟨d :: x, by rw [hx]; rfl⟩

theorem parseLine_suffix {t : List (List Entry)} {l : List UInt8} {A : Acts} {r : List UInt8}
    (h : parseLine t l = .line A r) : ∃ x, l = x ++ r := by
  cases l with
  | nil => cases h
  | cons c l =>
    obtain ⟨x, hx⟩ := lineLoop_suffix t _ _ _ _ _ _ h
    exact ⟨c :: x, by rw [hx]; rfl⟩

mutual
theorem parseFile_number {t : List (List Entry)} {fs : List UInt8 → Option (List UInt8)} {name : String}
    (hs : ∀ f bytes, fs f = some bytes → ¬ Sets t name bytes) : ∀ (fuel : Nat) (file : List UInt8) (w : World),
      (parseFile t fs fuel file w).world.conf.number name = w.conf.number name
  | 0, file, w => by rw [parseFile]; rfl
  | fuel + 1, file, w => by
    rw [parseFile]
    split
    · rfl
    · simp only
      cases hb : fs file with
      | none => rfl
      | some bytes =>
        simp only
        have := parseLines_number hs fuel bytes.length bytes { w with depth := w.depth + 1, opened := file :: w.opened }
          ⟨[], bytes, hb, rfl⟩
        cases ho : parseLines t fs fuel bytes.length bytes { w with depth := w.depth + 1, opened := file :: w.opened } with
        | ok w' => rw [ho] at this; exact this
        | fatal w' => rw [ho] at this; exact this
        | ub w' => rw [ho] at this; exact this
termination_by fuel => (fuel, 0)

theorem parseLines_number {t : List (List Entry)} {fs : List UInt8 → Option (List UInt8)} {name : String}
    (hs : ∀ f bytes, fs f = some bytes → ¬ Sets t name bytes) : ∀ (fuel n : Nat) (bytes : List UInt8) (w : World)
      {file : List UInt8} (_ : ∃ pre whole, fs file = some whole ∧ whole = pre ++ bytes),
      (parseLines t fs fuel n bytes w).world.conf.number name = w.conf.number name
  | fuel, n, bytes, w, file, hf => by
    rw [parseLines]
    cases hp : parseLine t bytes with
    | end_ => rfl
    | bad => rfl
    | cut => rfl
    | line a rest =>
      simp only
      cases n with
      | zero => rfl
      | succ n =>
        simp only
        obtain ⟨pre, whole, hw, rfl⟩ := hf
        have hname : a.name ≠ some (nameBytes name) := fun hn => hs _ _ hw ⟨pre, bytes, a, rest, rfl, hp, hn⟩
        obtain ⟨x, hx⟩ := parseLine_suffix hp
        have hrest : ∃ p wh, fs file = some wh ∧ wh = p ++ rest := ⟨pre ++ x, _, hw, by rw [hx]; simp⟩
        have other : (match setKeys a w.conf with
            | .fatal => Outcome.fatal w
            | .ub => .ub w
            | .ok c => parseLines t fs fuel n rest { w with conf := c }).world.conf.number name = w.conf.number name := by
          cases hk : setKeys a w.conf with
          | fatal => rfl
          | ub => rfl
          | ok c =>
            simp only
            rw [parseLines_number hs fuel n rest { w with conf := c } hrest]
            exact setKeys_number hk hname
        cases ht : setTodo a with
        | exec nm f =>
          simp only
          split
          · rfl
          · have h1 := parseFile_number hs fuel (cleanName f) w
            cases ho : parseFile t fs fuel (cleanName f) w with
            | ok w' =>
              rw [ho] at h1
              simp only
              rw [parseLines_number hs fuel n rest w' hrest]
              exact h1
            | fatal w' => rw [ho] at h1; exact h1
            | ub w' => rw [ho] at h1; exact h1
        | _ => exact other
termination_by fuel n => (fuel, n + 1)
end

/-- **C65**: a numeric parameter which no file sets has the value the manual gives — all
documented parameters except the two of `unset_uid_differs`. -/
theorem unset_number_documented_partial {t : List (List Entry)} {fs : List UInt8 → Option (List UInt8)} {name : String} {v : Nat}
    (hd : (name, v) ∈ documented) (h707 : v ≠ 707) (hs : ∀ f bytes, fs f = some bytes → ¬ Sets t name bytes)
    (fuel : Nat) (file : List UInt8) {w : World} (h : parseFile t fs fuel file { conf := Conf.init, depth := 0, opened := [] } = .ok w) :
    w.conf.number name = some v := by
  have := parseFile_number hs fuel file { conf := Conf.init, depth := 0, opened := [] }
  rw [h] at this
  have e : w.conf.number name = Conf.init.number name := this
  rw [e]
  have all : ∀ p ∈ documented, p.2 ≠ 707 → Conf.init.number p.1 = some p.2 := by decide +kernel
  exact all _ hd h707

/-- The file `maxprocs=7`. -/
def exFile : List UInt8 := [109, 97, 120, 112, 114, 111, 99, 115, 61, 55, 10]

def exNot (name : String) : Line → Bool
  | .line a _ => a.name != some (nameBytes name)
  | _ => true

example : ∃ w, parseFile (initFsm.getD []) (fun _ => some exFile) 9 [97] { conf := Conf.init, depth := 0, opened := [] } = .ok w ∧
    w.conf.number "maxprocs" = some 7 ∧ w.conf.number "dns_port" = some 53 := by
  have hall : ∀ k < 12, exNot "dns_port" (parseLine (initFsm.getD []) (exFile.drop k)) = true := by decide +kernel
  have hs : ∀ f bytes, (fun _ : List UInt8 => some exFile) f = some bytes → ¬ Sets (initFsm.getD []) "dns_port" bytes := by
    rintro f bytes h ⟨pre, post, a, rest, hb, hp, hn⟩
    cases h
    have hl : pre.length < 12 := by
      have := congrArg List.length hb
      simp [exFile] at this
      omega
    have := hall _ hl
    rw [hb, List.drop_left, hp] at this
    simp [exNot, hn] at this
  have hw : parseFile (initFsm.getD []) (fun _ => some exFile) 9 [97] { conf := Conf.init, depth := 0, opened := [] } =
      .ok { conf := { Conf.init with n := Conf.init.n.set 0 7 }, depth := 0, opened := [[97]] } := by
    have e1 : parseLine (initFsm.getD []) exFile = .line { name := some [109, 97, 120, 112, 114, 111, 99, 115], num := some [55] } [] := by
      decide +kernel
    have e2 : setKeys { name := some [109, 97, 120, 112, 114, 111, 99, 115], num := some [55] } Conf.init =
      .ok { Conf.init with n := Conf.init.n.set 0 7 } := by decide +kernel
    have e3 : setTodo { name := some [109, 97, 120, 112, 114, 111, 99, 115], num := some [55] } = .setNum := by decide +kernel
    rw [parseFile, if_neg (by decide)]
    simp only
    rw [parseLines, e1, show exFile.length = 10 + 1 from rfl]
    simp only [e3, e2]
    rw [parseLines]
    rfl
  exact ⟨_, hw, by decide +kernel, unset_number_documented_partial (by decide +kernel) (by decide) hs 9 [97] hw⟩

/-- **Finding.** The manual gives 707 for the user and group the program runs as; it is 99. -/
theorem unset_uid_differs : ("maradns_uid", 707) ∈ documented ∧ ("maradns_gid", 707) ∈ documented ∧
    Conf.init.number "maradns_uid" = some 99 ∧ Conf.init.number "maradns_gid" = some 99 := by decide +kernel

/-- **C41**: a number cannot be added to. -/
theorem add_number_fatal (c : Conf) {name d : List UInt8} (hn : Name name) (hl : name.length ≤ 383)
    (hd0 : d ≠ []) (hdl : d.length ≤ 383) : setKeys (actsOf (.set name true (.num d))) c = .fatal := by
  have e : actsOf (.set name true (.num d)) = { name := some name, num := some d, plus := some [61] } := by
    simp [actsOf, cut_short hl, cut_short hdl, name_ne hn, hd0]
  rw [e]
  simp [setKeys, setTodo]

/-- `maxprocs += 5` -/
example : setKeys (actsOf (.set [109, 97, 120, 112, 114, 111, 99, 115] true (.num [53]))) Conf.init = .fatal :=
  add_number_fatal _ ⟨109, _, rfl, Or.inl (by decide), by intro c h; left; left; revert c; decide⟩ (by decide) (by decide) (by decide)

end Rc
end Dw
