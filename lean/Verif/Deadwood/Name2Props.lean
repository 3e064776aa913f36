import Verif.Deadwood.NameProps

/-!
# Properties C10–C13: chopping labels, question names, name ends and lifetimes
-/

namespace Dw
open DwStr Spec

/-! ## C10: chopping labels -/

theorem chopLoop_eq {inp : DwStr} (h : Usable inp) : ∀ (n a b : Nat) (out : DwStr),
    a + n = inp.len → b + n ≤ out.max → out.buf.length = out.max + 2 →
    chopLoop inp n a b out = .ok (b + n, { out with buf := splice out.buf b (inp.contents.drop a) }) := by
  intro n
  induction n with
  | zero =>
    intro a b out h1 h2 h3
    have : inp.contents.drop a = [] := List.drop_eq_nil_of_le (by rw [h.clen]; omega)
    simp [chopLoop, this, splice_nil]
  | succ n ih =>
    intro a b out h1 h2 h3
    obtain ⟨x, hp, hd, _⟩ := contents_drop h (i := a) (by omega)
    simp only [chopLoop]
    rw [if_pos (by omega), hp]
    simp only [Res.ok_bind]
    rw [poke_ok _ (by omega)]
    simp only [Res.ok_bind]
    rw [ih (a + 1) (b + 1) _ (by omega) (by simp; omega) (by simpa using h3)]
    simp only
    rw [splice_set _ _ _ _ (by omega), ← hd]
    congr 2; omega

/-- C10, one step.  A key starting with a label of 1 to 63 bytes loses exactly
that label; a key starting with the root label or with a byte above 63, or
shorter than two bytes, is refused. -/
theorem dnslabelChop_exact {s : DwStr} (h : Usable s) (junk : List UInt8) :
    (∀ l rest, s.contents = UInt8.ofNat l.length :: l ++ rest → 1 ≤ l.length → l.length ≤ 63 →
      ∃ out, dnslabelChop s junk = .ok out ∧ Usable out ∧ out.contents = rest) ∧
    (s.contents.length < 2 → dnslabelChop s junk = .err) ∧
    (∀ c rest, s.contents = c :: rest → c = 0 ∨ 63 < c → dnslabelChop s junk = .err) := by
  have hl := h.clen
  have hlt := h.lt
  have hlim := h.lim
  refine ⟨?_, ?_, ?_⟩
  · intro l rest hc h1 h2
    have hlen : s.len = 1 + l.length + rest.length := by rw [← hl, hc]; simp; omega
    have ho : (UInt8.ofNat l.length).toNat = l.length := by simp; omega
    have hp : s.peek 0 = .ok (UInt8.ofNat l.length) := by
      rw [peek_contents (by omega)]; simp [hc]
    obtain ⟨o, e⟩ := create_eq (size := s.len - l.length + 1) junk (by omega)
    obtain ⟨g1, g2, g3, _⟩ := create_ok e
    unfold WF at g1
    have key := chopLoop_eq h (s.len - (l.length + 1)) (l.length + 1) 0 o (by omega) (by omega) g1
    have hd : s.contents.drop (l.length + 1) = rest := by
      rw [hc]; simp
    rw [hd] at key
    have hr : s.len - (l.length + 1) = rest.length := by omega
    refine ⟨{ o with len := 0 + rest.length, buf := splice o.buf 0 rest }, ?_, ⟨?_, ?_, ?_⟩, ?_⟩
    · unfold dnslabelChop
      simp only [h.sane, Bool.not_true, Bool.false_eq_true, if_false]
      rw [if_neg (by omega), hp]
      simp only [Res.ok_bind, ho]
      rw [if_neg (by omega), if_neg (by omega), e]
      rw [Res.ok_bind, key, hr]; rfl
    · unfold WF; simp only
      rw [splice_length (by omega)]; exact g1
    · simp only; omega
    · simp only; omega
    · have := splice_take o.buf 0 rest (by omega)
      simpa [contents] using this
  · intro hh
    rw [hl] at hh
    simp [dnslabelChop, h.sane, hh]
  · intro c rest hc hcc
    unfold dnslabelChop
    simp only [h.sane, Bool.not_true, Bool.false_eq_true, if_false]
    by_cases h2 : s.len < 2
    · rw [if_pos h2]
    · have hp : s.peek 0 = .ok c := by
        rw [peek_contents (by omega)]; simp [hc]
      rw [if_neg h2, hp]
      simp only [Res.ok_bind]
      rw [if_pos]
      rcases hcc with rfl | hcc
      · left; decide
      · right; simpa [UInt8.lt_iff_toNat_lt] using hcc

/-- Chop `k` times. -/
def chopN : Nat → DwStr → Res DwStr
  | 0, s => .ok s
  | k + 1, s => do let s' ← dnslabelChop s []; chopN k s'

/-- C10.  Chopping the key of a name of `n` labels followed by a record type
visits the ancestors in order: after `k ≤ n` steps the key of the name without its
first `k` labels and with the same type; the `n+1`-st step is refused (at the
root). -/
theorem chopN_ancestors : ∀ (ls : List (List UInt8)) {s : DwStr} (t : List UInt8), Usable s → LabelsOk ls →
    s.contents = encName ls ++ t →
    (∀ k, k ≤ ls.length → ∃ s', chopN k s = .ok s' ∧ s'.contents = encName (ls.drop k) ++ t) ∧
    chopN (ls.length + 1) s = .err := by
  intro ls
  induction ls with
  | nil =>
    intro s t h hok hc
    constructor
    · intro k hk
      have : k = 0 := by simpa using hk
      subst this
      exact ⟨s, rfl, by simpa using hc⟩
    · have := (dnslabelChop_exact h []).2.2 0 t (by simpa [encName, encLabels] using hc) (Or.inl rfl)
      simp [chopN, this]
  | cons l ls ih =>
    intro s t h hok hc
    have hc' : s.contents = UInt8.ofNat l.length :: l ++ (encName ls ++ t) := by
      rw [hc, encName_cons]; simp
    obtain ⟨o, e, hu, ho⟩ := (dnslabelChop_exact h []).1 l _ hc' hok.head.1 hok.head.2
    obtain ⟨i1, i2⟩ := ih t hu hok.tail ho
    constructor
    · intro k hk
      cases k with
      | zero => exact ⟨s, rfl, by simpa using hc⟩
      | succ k =>
        obtain ⟨s', a1, a2⟩ := i1 k (by simpa using hk)
        exact ⟨s', by simp [chopN, e, a1], by simpa using a2⟩
    · simp only [List.length_cons, chopN, e, Res.ok_bind]
      exact i2

/-- The key of "ab.c." type 1. -/
def exKey : DwStr := { len := 8, max := 10, buf := [2, 97, 98, 1, 99, 0, 0, 1, 0, 0, 0, 0] }
example : Usable exKey ∧ exKey.contents = encName [[97, 98], [99]] ++ [0, 1] ∧
    (∃ s', chopN 1 exKey = .ok s' ∧ s'.contents = [1, 99, 0, 0, 1]) :=
  ⟨⟨rfl, by decide, by decide⟩, by decide, _, rfl, by decide⟩

theorem take_drop_add {α : Type} (l : List α) (a b : Nat) :
    (l.drop a).take b ++ l.drop (a + b) = l.drop a := by
  rw [← List.drop_drop, List.take_append_drop]

/-! ## C11: extracting the question -/

theorem rawPeek_ok {raw : List UInt8} {i : Nat} (h : i < raw.length) : rawPeek raw i = .ok raw[i] := by
  simp [rawPeek, h]

theorem dnameLabel_eq (raw : List UInt8) (max cap : Nat) (hraw : max ≤ raw.length) (hcap : 260 ≤ cap) :
    ∀ (len offset : Nat) (acc : List UInt8), offset + 2 < max → acc.length ≤ 256 →
    ((offset + len + 2 < max ∧ acc.length + len ≤ 256 ∧ ∀ x ∈ (raw.drop (offset + 1)).take len, 32 ≤ x) →
      dnameLabel raw max cap len offset acc = .ok (offset + len, acc ++ (raw.drop (offset + 1)).take len)) ∧
    (¬ (offset + len + 2 < max ∧ acc.length + len ≤ 256 ∧ ∀ x ∈ (raw.drop (offset + 1)).take len, 32 ≤ x) →
      dnameLabel raw max cap len offset acc = .err) := by
  intro len
  induction len with
  | zero =>
    intro offset acc h1 h2
    simp [dnameLabel]; omega
  | succ len ih =>
    intro offset acc h1 h2
    simp only [dnameLabel]
    by_cases hc : ((offset : Int) + 1 ≥ (max : Int) - 2 ∨ acc.length > 255)
    · rw [if_pos hc]
      refine ⟨fun h => ?_, fun _ => rfl⟩
      omega
    · rw [if_neg hc, if_neg (by omega)]
      have hi : offset + 1 < raw.length := by omega
      rw [rawPeek_ok hi]
      simp only [Res.ok_bind]
      rw [take_drop_succ _ _ _ hi]
      by_cases hx : raw[offset + 1] < 32
      · rw [if_pos hx]
        refine ⟨fun h => ?_, fun _ => rfl⟩
        exact absurd (h.2.2 raw[offset + 1] (by simp)) (UInt8.not_le.2 hx)
      · rw [if_neg hx]
        obtain ⟨i1, i2⟩ := ih (offset + 1) (acc ++ [raw[offset + 1]]) (by omega) (by simp; omega)
        constructor
        · rintro ⟨a1, a2, a3⟩
          rw [i1 ⟨by omega, by simp; omega, fun x hx => a3 x (by simp [hx])⟩]
          congr 2
          · omega
          · simp
        · intro hn
          apply i2
          rintro ⟨a1, a2, a3⟩
          apply hn
          refine ⟨by omega, by simp at a2; omega, ?_⟩
          intro x hx'
          simp only [List.mem_cons] at hx'
          rcases hx' with rfl | hx'
          · exact UInt8.not_lt.1 hx
          · exact a3 x hx'

/-- No byte below 32 in any label. -/
def NoCtl (ls : List (List UInt8)) : Prop := ∀ l ∈ ls, ∀ c ∈ l, 32 ≤ c

/-- At `offset` of the first `max` bytes of `raw` there is a legal question name
with labels `ls`, of at most 256 bytes, with at least two more bytes after it. -/
def NameAt (raw : List UInt8) (offset max : Nat) (ls : List (List UInt8)) : Prop :=
  (∃ rest, raw.drop offset = encName ls ++ rest) ∧ LabelsOk ls ∧ NoCtl ls ∧
    (encName ls).length ≤ 256 ∧ offset + (encName ls).length + 2 ≤ max

theorem dnameLoop_complete (raw : List UInt8) (max cap : Nat) (hraw : max ≤ raw.length) (hcap : 260 ≤ cap) :
    ∀ (ls : List (List UInt8)) (n offset : Nat) (acc rest : List UInt8), ls.length < n → n ≤ 400 →
    raw.drop offset = encName ls ++ rest → LabelsOk ls → NoCtl ls →
    acc.length + (encName ls).length ≤ 256 → offset + (encName ls).length + 2 ≤ max →
    dnameLoop raw max cap n offset acc = .ok (acc ++ encName ls, 400 - n + ls.length) := by
  intro ls
  induction ls with
  | nil =>
    intro n offset acc rest hn hn2 hd hok hct ha hm
    cases n with
    | zero => simp at hn
    | succ n =>
      simp [encName, encLabels] at ha hm hd ⊢
      have hi : offset < raw.length := by omega
      have h0 : raw[offset] = 0 := by
        have := congrArg List.head? hd; simpa [hi] using this
      simp only [dnameLoop]
      rw [if_neg (by omega), if_neg (by omega), rawPeek_ok hi, h0]
      simp
  | cons l ls ih =>
    intro n offset acc rest hn hn2 hd hok hct ha hm
    cases n with
    | zero => simp at hn
    | succ n =>
      obtain ⟨hl1, hl2⟩ := hok.head
      have hlen : (encName (l :: ls)).length = 1 + l.length + (encName ls).length := by
        rw [encName_cons]; simp; omega
      have hpos : 1 ≤ (encName ls).length := by simp [encName]
      rw [encName_cons] at hd
      have hi : offset < raw.length := by omega
      have h0 : raw[offset] = UInt8.ofNat l.length := by
        have := congrArg List.head? hd; simpa [hi] using this
      have hto : (UInt8.ofNat l.length).toNat = l.length := by simp; omega
      have hd1 : raw.drop (offset + 1) = l ++ (encName ls ++ rest) := by
        rw [← List.drop_drop, hd]; simp
      have hw : (raw.drop (offset + 1)).take l.length = l := by rw [hd1]; simp
      simp only [dnameLoop]
      rw [if_neg (by omega), if_neg (by omega), rawPeek_ok hi, h0]
      simp only [Res.ok_bind]
      rw [if_neg (by simp only [GT.gt, UInt8.lt_iff_toNat_lt, hto]; simp; omega),
        if_neg (by intro e; have := congrArg UInt8.toNat e; rw [hto] at this; simp at this; simp [this] at hl1), hto]
      rw [(dnameLabel_eq raw max cap hraw hcap l.length offset (acc ++ [UInt8.ofNat l.length]) (by omega) (by simp; omega)).1
        ⟨by omega, by simp; omega, by rw [hw]; exact hct l (by simp)⟩]
      simp only [Res.ok_bind, hw]
      rw [ih n (offset + l.length + 1) _ rest (by simp at hn; omega) (by omega)
        (by rw [show offset + l.length + 1 = (offset + 1) + l.length by omega, ← List.drop_drop, hd1]; simp)
        hok.tail (fun l' hl' => hct l' (by simp [hl'])) (by simp; omega) (by omega)]
      rw [encName_cons]
      simp; omega

theorem dnameLoop_sound (raw : List UInt8) (max cap : Nat) (hraw : max ≤ raw.length) (hcap : 260 ≤ cap) :
    ∀ (n offset : Nat) (acc : List UInt8), 257 < acc.length + 2 * n → acc.length ≤ 256 →
    dnameLoop raw max cap n offset acc = .err ∨
    ∃ ls rest, raw.drop offset = encName ls ++ rest ∧ LabelsOk ls ∧ NoCtl ls ∧
      acc.length + (encName ls).length ≤ 256 ∧ offset + (encName ls).length + 2 ≤ max ∧ ls.length < n := by
  intro n
  induction n with
  | zero => intro offset acc h1 h2; omega
  | succ n ih =>
    intro offset acc h1 h2
    simp only [dnameLoop]
    by_cases hc : ((offset : Int) ≥ (max : Int) - 2 ∨ acc.length > 255)
    · rw [if_pos hc]; exact Or.inl rfl
    · rw [if_neg hc, if_neg (by omega)]
      have hi : offset < raw.length := by omega
      rw [rawPeek_ok hi]
      simp only [Res.ok_bind]
      generalize hb : raw[offset] = b
      by_cases h63 : b > 63
      · rw [if_pos h63]; exact Or.inl rfl
      rw [if_neg h63]
      by_cases hz : b = 0
      · rw [if_pos hz]
        right
        refine ⟨[], raw.drop (offset + 1), ?_, by simp [LabelsOk], by simp [NoCtl], by simp [encName, encLabels]; omega,
          by simp [encName, encLabels]; omega, by simp⟩
        rw [List.drop_eq_getElem_cons hi, hb, hz]; simp [encName, encLabels]
      · rw [if_neg hz]
        have hb63 : b.toNat ≤ 63 := by simpa [UInt8.lt_iff_toNat_lt] using h63
        have hb1 : 1 ≤ b.toNat := by
          rcases Nat.eq_zero_or_pos b.toNat with h | h
          · exact absurd (UInt8.toNat_inj.1 (by simpa using h)) hz
          · exact h
        have hlab := dnameLabel_eq raw max cap hraw hcap b.toNat offset (acc ++ [b]) (by omega) (by simp; omega)
        by_cases hcond : (offset + b.toNat + 2 < max ∧ (acc ++ [b]).length + b.toNat ≤ 256 ∧
            ∀ x ∈ (raw.drop (offset + 1)).take b.toNat, 32 ≤ x)
        · rw [hlab.1 hcond]
          simp only [Res.ok_bind]
          obtain ⟨c1, c2, c3⟩ := hcond
          simp only [List.length_append, List.length_cons, List.length_nil] at c2
          have hwl : ((raw.drop (offset + 1)).take b.toNat).length = b.toNat := by simp; omega
          rcases ih (offset + b.toNat + 1) (acc ++ [b] ++ (raw.drop (offset + 1)).take b.toNat)
            (by rw [List.length_append, hwl]; simp; omega) (by rw [List.length_append, hwl]; simp; omega) with h | h
          · exact Or.inl h
          · right
            obtain ⟨ls, rest, a1, a2, a3, a4, a5, a6⟩ := h
            rw [List.length_append, hwl] at a4
            simp only [List.length_append, List.length_cons, List.length_nil] at a4
            refine ⟨(raw.drop (offset + 1)).take b.toNat :: ls, rest, ?_, ?_, ?_, ?_, ?_, ?_⟩
            · rw [encName_cons, hwl]
              have e1 : UInt8.ofNat b.toNat = b := by simp
              rw [e1, List.drop_eq_getElem_cons hi, hb]
              simp only [List.cons_append, List.append_assoc]
              rw [← a1, show offset + b.toNat + 1 = (offset + 1) + b.toNat by omega,
                take_drop_add]
            · intro l hl
              simp only [List.mem_cons] at hl
              rcases hl with rfl | hl
              · rw [hwl]; omega
              · exact a2 l hl
            · intro l hl
              simp only [List.mem_cons] at hl
              rcases hl with rfl | hl
              · exact c3
              · exact a3 l hl
            · rw [encName_cons]; simp only [List.length_append, List.length_cons, hwl]; omega
            · rw [encName_cons]; simp only [List.length_append, List.length_cons, hwl]; omega
            · simp; omega
        · rw [hlab.2 hcond]; exact Or.inl rfl

theorem encName_labels_le {ls : List (List UInt8)} (h : LabelsOk ls) : 2 * ls.length < (encName ls).length := by
  induction ls with
  | nil => simp [encName]
  | cons l ls ih =>
    have := ih h.tail
    have := h.head.1
    rw [encName_cons]; simp; omega

/-- C11 (name).  Extracting a question name from a buffer of at least `max` bytes
never reads outside of it; it succeeds exactly when a legal uncompressed name
without control characters lies at the offset (with two more bytes after it
before `max`), and then returns exactly the bytes of that name and its number of
labels; otherwise it is refused. -/
theorem getDname_exact (raw : List UInt8) (offset max : Nat) (hraw : max ≤ raw.length) (hmax : max < 134217728) :
    (∃ ls, NameAt raw offset max ls ∧ getDname raw offset max = .ok (encName ls, ls.length)) ∨
    ((¬ ∃ ls, NameAt raw offset max ls) ∧ getDname raw offset max = .err) := by
  have hcap : 260 ≤ (if max > 260 then max else 260) := by split <;> omega
  have hlt : ¬ 134217728 ≤ (if max > 260 then max else 260) := by split <;> omega
  have hcomp : ∀ ls, NameAt raw offset max ls → getDname raw offset max = .ok (encName ls, ls.length) := by
    rintro ls ⟨⟨rest, h1⟩, h2, h3, h4, h5⟩
    have := encName_labels_le h2
    unfold getDname
    simp only [if_neg hlt]
    rw [dnameLoop_complete raw max _ hraw hcap ls 400 offset [] rest (by omega) (by omega) h1 h2 h3 (by simpa using h4) h5]
    simp
  by_cases he : ∃ ls, NameAt raw offset max ls
  · obtain ⟨ls, h⟩ := he
    exact Or.inl ⟨ls, h, hcomp ls h⟩
  · right
    refine ⟨he, ?_⟩
    unfold getDname
    simp only [if_neg hlt]
    rcases dnameLoop_sound raw max _ hraw hcap 400 offset [] (by simp) (by simp) with h | ⟨ls, rest, h1, h2, h3, h4, h5, _⟩
    · exact h
    · exact absurd ⟨ls, ⟨rest, h1⟩, h2, h3, by simpa using h4, h5⟩ he

/-- The packet bytes "\3abc\0" type A class IN at offset 2. -/
example : getDname [9, 9, 3, 97, 98, 99, 0, 0, 1, 0, 1] 2 11 = .ok (encName [[97, 98, 99]], 1) := by decide
example : NameAt [9, 9, 3, 97, 98, 99, 0, 0, 1, 0, 1] 2 11 [[97, 98, 99]] :=
  ⟨⟨[0, 1, 0, 1], rfl⟩, by simp [LabelsOk], by simp [NoCtl], by decide, by decide⟩

/-- C11.  Extracting a question (name and type) either is refused or returns
exactly the bytes of the packet at that place: a legal name followed by the two
type bytes, both inside the first `max` bytes, the type not being one of the
private types ff70-ff7f; and every such question is accepted. -/
theorem getDnameType_exact (raw : List UInt8) (offset max : Nat) (hraw : max ≤ raw.length) (hmax : max < 134217728) :
    (∃ ls t0 t1 rest, NameAt raw offset max ls ∧ raw.drop offset = encName ls ++ t0 :: t1 :: rest ∧
      ¬ (t0 = 0xff ∧ 0x70 ≤ t1.toNat ∧ t1.toNat ≤ 0x7f) ∧
      getDnameType raw offset max = .ok (encName ls ++ [t0, t1])) ∨
    (getDnameType raw offset max = .err ∧
      ¬ ∃ ls t0 t1 rest, NameAt raw offset max ls ∧ raw.drop offset = encName ls ++ t0 :: t1 :: rest ∧
        ¬ (t0 = 0xff ∧ 0x70 ≤ t1.toNat ∧ t1.toNat ≤ 0x7f)) := by
  have hmask : ∀ t1 : UInt8, (t1 &&& 0xf0 = 0x70) ↔ (0x70 ≤ t1.toNat ∧ t1.toNat ≤ 0x7f) := by
    have : ∀ n : Fin 256, ((UInt8.ofNat n.val) &&& 0xf0 = 0x70) ↔ (0x70 ≤ n.val ∧ n.val ≤ 0x7f) := by
      decide +kernel
    intro t1
    have := this ⟨t1.toNat, t1.toNat_lt⟩
    simpa using this
  rcases getDname_exact raw offset max hraw hmax with ⟨ls, hn, he⟩ | ⟨hn, he⟩
  · obtain ⟨⟨rest, h1⟩, h2, h3, h4, h5⟩ := hn
    have hi0 : offset + (encName ls).length < raw.length := by omega
    have hi1 : offset + (encName ls).length + 1 < raw.length := by omega
    have hdr : raw.drop (offset + (encName ls).length) = rest := by
      rw [← List.drop_drop, h1]; simp
    have hr : rest = raw[offset + (encName ls).length] :: raw[offset + (encName ls).length + 1] ::
        raw.drop (offset + (encName ls).length + 2) := by
      rw [← hdr, List.drop_eq_getElem_cons hi0, List.drop_eq_getElem_cons hi1]
    have hdet : ∀ ls' t0 t1 rest', NameAt raw offset max ls' → raw.drop offset = encName ls' ++ t0 :: t1 :: rest' →
        t0 = raw[offset + (encName ls).length] ∧ t1 = raw[offset + (encName ls).length + 1] := by
      intro ls' t0 t1 rest' hn' hd'
      -- the name is determined because the extraction is a function
      rcases getDname_exact raw offset max hraw hmax with ⟨ls2, _, he2⟩ | ⟨hno, _⟩
      · have hc : getDname raw offset max = .ok (encName ls', ls'.length) := by
          obtain ⟨⟨r, g1⟩, g2, g3, g4, g5⟩ := hn'
          have hcap : 260 ≤ (if max > 260 then max else 260) := by split <;> omega
          have hlt : ¬ 134217728 ≤ (if max > 260 then max else 260) := by split <;> omega
          have := encName_labels_le g2
          unfold getDname
          simp only [if_neg hlt]
          rw [dnameLoop_complete raw max _ hraw hcap ls' 400 offset [] r (by omega) (by omega) g1 g2 g3 (by simpa using g4) g5]
          simp
        rw [he] at hc
        simp only [Res.ok.injEq, Prod.mk.injEq] at hc
        rw [h1, ← hc.1] at hd'
        have := List.append_cancel_left hd'
        rw [hr] at this
        simp only [List.cons.injEq] at this
        exact ⟨this.1.symm, this.2.1.symm⟩
      · exact absurd ⟨ls', hn'⟩ hno
    by_cases hp : (raw[offset + (encName ls).length] = 0xff ∧ 0x70 ≤ raw[offset + (encName ls).length + 1].toNat ∧
        raw[offset + (encName ls).length + 1].toNat ≤ 0x7f)
    · right
      refine ⟨?_, ?_⟩
      · simp only [getDnameType, he, Res.ok_bind, rawPeek_ok hi0, rawPeek_ok hi1]
        rw [if_pos ⟨hp.1, (hmask _).2 hp.2⟩]
      · rintro ⟨ls', t0, t1, rest', g1, g2, g3⟩
        obtain ⟨e0, e1⟩ := hdet ls' t0 t1 rest' g1 g2
        subst e0; subst e1
        exact g3 hp
    · left
      refine ⟨ls, _, _, _, ⟨⟨rest, h1⟩, h2, h3, h4, h5⟩, by rw [h1, ← hr], hp, ?_⟩
      simp only [getDnameType, he, Res.ok_bind, rawPeek_ok hi0, rawPeek_ok hi1]
      rw [if_neg (by rw [hmask]; exact hp), if_neg (by split <;> omega)]
  · right
    refine ⟨by simp [getDnameType, he], ?_⟩
    rintro ⟨ls, _, _, _, g, _⟩
    exact hn ⟨ls, g⟩

example : getDnameType [9, 9, 3, 97, 98, 99, 0, 0, 1, 0, 1] 2 11 = .ok (encName [[97, 98, 99]] ++ [0, 1]) := by decide
example : getDnameType [9, 9, 3, 97, 98, 99, 0, 0xff, 0x75, 0, 1] 2 11 = .err := by decide

/-! ## C12: skipping a name -/

/-- The name at `offset` of the packet occupies the bytes up to `e`: fewer than 200
labels followed by the root label or by a two-byte pointer. -/
def NameEnd (pkt : List UInt8) (offset e : Nat) : Prop :=
  ∃ ls c rest, pkt.drop offset = encLabels ls ++ c :: rest ∧ LabelsOk ls ∧ ls.length < 200 ∧
    ((c = 0 ∧ e = offset + (encLabels ls).length + 1) ∨ (192 ≤ c ∧ e = offset + (encLabels ls).length + 2))

theorem dnEndLoop_complete {s : DwStr} (h : Usable s) : ∀ (ls : List (List UInt8)) (n offset : Nat) (c : UInt8)
    (rest : List UInt8), ls.length < n → s.contents.drop offset = encLabels ls ++ c :: rest → LabelsOk ls →
    (c = 0 → dnEndLoop s n offset = .ok (offset + (encLabels ls).length + 1)) ∧
    (192 ≤ c → dnEndLoop s n offset = .ok (offset + (encLabels ls).length + 2)) ∧
    (63 < c → c < 192 → dnEndLoop s n offset = .err) := by
  intro ls
  induction ls with
  | nil =>
    intro n offset c rest hn hd hok
    cases n with
    | zero => simp at hn
    | succ n =>
      simp only [encLabels, List.flatMap_nil, List.nil_append] at hd
      have hi : offset < s.len := by
        have := congrArg List.length hd; simp [h.clen] at this; omega
      obtain ⟨x, hp, hd', _⟩ := contents_drop h hi
      rw [hd] at hd'
      simp only [List.cons.injEq] at hd'
      rw [← hd'.1] at hp
      simp only [dnEndLoop]
      rw [if_neg (by omega), hp]
      simp only [Res.ok_bind, encLabels, List.flatMap_nil, List.length_nil, Nat.add_zero]
      refine ⟨?_, ?_, ?_⟩
      · rintro rfl; simp
      · intro hc; rw [if_pos hc]
      · intro h1 h2; rw [if_neg (UInt8.not_le.2 h2), if_pos h1]
  | cons l ls ih =>
    intro n offset c rest hn hd hok
    cases n with
    | zero => simp at hn
    | succ n =>
      obtain ⟨hl1, hl2⟩ := hok.head
      rw [encLabels_cons] at hd
      have hi : offset < s.len := by
        have := congrArg List.length hd; simp [h.clen] at this; omega
      obtain ⟨x, hp, hd', _⟩ := contents_drop h hi
      rw [hd] at hd'
      simp only [List.cons_append, List.cons.injEq] at hd'
      rw [← hd'.1] at hp
      have hto : (UInt8.ofNat l.length).toNat = l.length := by simp; omega
      have key := ih n (offset + l.length + 1) c rest (by simp at hn; omega)
        (by rw [show offset + l.length + 1 = (offset + 1) + l.length by omega, ← List.drop_drop, ← hd'.2]; simp) hok.tail
      simp only [dnEndLoop]
      rw [if_neg (by omega), hp]
      simp only [Res.ok_bind]
      rw [if_neg (by simp only [GE.ge, UInt8.le_iff_toNat_le, hto]; simp; omega),
        if_neg (by simp only [GT.gt, UInt8.lt_iff_toNat_lt, hto]; simp; omega),
        if_neg (by intro e; have := congrArg UInt8.toNat e; rw [hto] at this; simp at this; simp [this] at hl1), hto]
      have e1 : offset + (encLabels (l :: ls)).length + 1 = offset + l.length + 1 + (encLabels ls).length + 1 := by
        rw [encLabels_cons]; simp; omega
      rw [e1, show offset + (encLabels (l :: ls)).length + 2 = offset + l.length + 1 + (encLabels ls).length + 2 by omega]
      exact key

theorem dnEndLoop_sound {s : DwStr} (h : Usable s) : ∀ (n offset : Nat),
    dnEndLoop s n offset = .err ∨
    (∃ ls c rest, s.contents.drop offset = encLabels ls ++ c :: rest ∧ LabelsOk ls ∧ ls.length < n ∧
      (c = 0 ∨ 192 ≤ c)) ∨
    dnEndLoop s n offset = .ok (offset + 1) ∧ n = 0 ∨
    (∃ r, dnEndLoop s n offset = .ok r ∧ offset + 2 * n < r ∧ n ≠ 0) := by
  intro n
  induction n with
  | zero => intro offset; right; right; left; exact ⟨rfl, rfl⟩
  | succ n ih =>
    intro offset
    simp only [dnEndLoop]
    by_cases hi : offset + 1 > s.len
    · rw [if_pos hi]; exact Or.inl rfl
    · rw [if_neg hi]
      obtain ⟨x, hp, hd, _⟩ := contents_drop h (i := offset) (by omega)
      rw [hp]
      simp only [Res.ok_bind]
      by_cases h1 : x ≥ 192
      · right; left
        exact ⟨[], x, _, by simpa [encLabels] using hd, by simp [LabelsOk], by simp, Or.inr h1⟩
      rw [if_neg h1]
      by_cases h2 : x > 63
      · rw [if_pos h2]; exact Or.inl rfl
      rw [if_neg h2]
      by_cases h3 : x = 0
      · right; left
        exact ⟨[], x, _, by simpa [encLabels] using hd, by simp [LabelsOk], by simp, Or.inl h3⟩
      rw [if_neg h3]
      have hx1 : 1 ≤ x.toNat := by
        rcases Nat.eq_zero_or_pos x.toNat with h | h
        · exact absurd (UInt8.toNat_inj.1 (by simpa using h)) h3
        · exact h
      have hx2 : x.toNat ≤ 63 := by simpa [UInt8.lt_iff_toNat_lt] using h2
      rcases ih (offset + x.toNat + 1) with g | ⟨ls, c, rest, g1, g2, g3, g4⟩ | ⟨g, g'⟩ | ⟨r, g1, g2, g3⟩
      · exact Or.inl g
      · right; left
        have hwl : ((s.contents.drop (offset + 1)).take x.toNat).length = x.toNat := by
          have := congrArg List.length g1
          simp at this ⊢; omega
        refine ⟨(s.contents.drop (offset + 1)).take x.toNat :: ls, c, rest, ?_, ?_, by simp; omega, g4⟩
        · rw [encLabels_cons, hwl, hd]
          have e1 : UInt8.ofNat x.toNat = x := by simp
          rw [e1]
          simp only [List.cons_append, List.append_assoc]
          rw [← g1, show offset + x.toNat + 1 = (offset + 1) + x.toNat by omega,
            take_drop_add]
        · intro l hl
          simp only [List.mem_cons] at hl
          rcases hl with rfl | hl
          · rw [hwl]; omega
          · exact g2 l hl
      · right; right; right
        refine ⟨_, g, by subst g'; omega, by omega⟩
      · right; right; right
        exact ⟨r, g1, by omega, by omega⟩

/-- C12.  Skipping a name at any offset of a usable string never reads outside its
block and always ends: it gives the end of the name whenever there is one (labels
followed by the root or a pointer), and otherwise an error, except that after 200
labels (more than any legal name can have) it gives up with an offset more than
400 bytes further on. -/
theorem getDnEnd_exact {s : DwStr} (h : Usable s) (offset : Nat) :
    (∃ e, NameEnd s.contents offset e ∧ getDnEnd s offset = .ok e) ∨
    ((¬ ∃ e, NameEnd s.contents offset e) ∧
      (getDnEnd s offset = .err ∨ ∃ r, getDnEnd s offset = .ok r ∧ offset + 400 < r)) := by
  have hcomp : ∀ e, NameEnd s.contents offset e → getDnEnd s offset = .ok e := by
    rintro e ⟨ls, c, rest, h1, h2, h3, h4⟩
    have := dnEndLoop_complete h ls 200 offset c rest h3 h1 h2
    unfold getDnEnd
    simp only [h.sane, Bool.not_true, Bool.false_eq_true, if_false]
    rcases h4 with ⟨h4, rfl⟩ | ⟨h4, rfl⟩
    · exact this.1 h4
    · exact this.2.1 h4
  by_cases he : ∃ e, NameEnd s.contents offset e
  · obtain ⟨e, he⟩ := he
    exact Or.inl ⟨e, he, hcomp e he⟩
  · right
    refine ⟨he, ?_⟩
    unfold getDnEnd
    simp only [h.sane, Bool.not_true, Bool.false_eq_true, if_false]
    rcases dnEndLoop_sound h 200 offset with g | ⟨ls, c, rest, g1, g2, g3, g4⟩ | ⟨_, g'⟩ | ⟨r, g1, g2, g3⟩
    · exact Or.inl g
    · exfalso
      apply he
      rcases g4 with g4 | g4
      · exact ⟨_, ls, c, rest, g1, g2, g3, Or.inl ⟨g4, rfl⟩⟩
      · exact ⟨_, ls, c, rest, g1, g2, g3, Or.inr ⟨g4, rfl⟩⟩
    · omega
    · exact Or.inr ⟨r, g1, by omega⟩

/-- "\1a" followed by a pointer, at offset 1. -/
def exPtr : DwStr := { len := 7, max := 9, buf := [9, 1, 97, 192, 12, 0, 1, 0, 0, 0, 0] }
example : Usable exPtr ∧ NameEnd exPtr.contents 1 5 ∧ getDnEnd exPtr 1 = .ok 5 :=
  ⟨⟨rfl, by decide, by decide⟩, ⟨[[97]], 192, [12, 0, 1], rfl, by simp [LabelsOk], by simp, Or.inr ⟨by decide, rfl⟩⟩,
    by decide⟩

/-- Finding: a pointer whose second byte lies beyond the packet is accepted; the
end reported is then beyond the packet. -/
theorem getDnEnd_may_pass_end : ∃ s : DwStr, Usable s ∧ s.contents.length = 1 ∧ getDnEnd s 0 = .ok 2 :=
  ⟨⟨1, 3, [192, 0, 0, 0, 0]⟩, ⟨rfl, by decide, by decide⟩, by decide, by decide⟩

/-! ## C13: lifetime of an answer -/

/-- Big-endian number at a place of a packet. -/
def numAt (pkt : List UInt8) (i n : Nat) : Nat := ((pkt.drop i).take n).foldl (fun a c => a * 256 + c.toNat) 0

/-- Starting with the record at `offset`, following records as long as they are
aliases (type 5), the lifetimes in the packet are these. -/
inductive TtlChain (pkt : List UInt8) : Nat → List Nat → Prop
  | last {o e : Nat} : NameEnd pkt o e → e + 8 ≤ pkt.length → numAt pkt e 2 ≠ 5 →
      TtlChain pkt o [numAt pkt (e + 4) 4]
  | alias {o e o2 : Nat} {ts : List Nat} : NameEnd pkt o e → e + 8 ≤ pkt.length → numAt pkt e 2 = 5 →
      NameEnd pkt (e + 10) o2 → o2 ≤ pkt.length → TtlChain pkt o2 ts →
      TtlChain pkt o (numAt pkt (e + 4) 4 :: ts)

theorem getDnEnd_of {s : DwStr} (h : Usable s) {o e : Nat} (he : NameEnd s.contents o e) :
    getDnEnd s o = .ok e := by
  obtain ⟨ls, c, rest, h1, h2, h3, h4⟩ := he
  have := dnEndLoop_complete h ls 200 o c rest h3 h1 h2
  unfold getDnEnd
  simp only [h.sane, Bool.not_true, Bool.false_eq_true, if_false]
  rcases h4 with ⟨h4, rfl⟩ | ⟨h4, rfl⟩
  · exact this.1 h4
  · exact this.2.1 h4

theorem numAt_two {pkt : List UInt8} {i : Nat} (h : i + 2 ≤ pkt.length) :
    numAt pkt i 2 = pkt[i].toNat * 256 + pkt[i + 1].toNat := by
  unfold numAt
  rw [take_drop_succ _ _ _ (by omega), take_drop_succ _ _ _ (by omega)]
  simp

theorem numAt_four {pkt : List UInt8} {i : Nat} (h : i + 4 ≤ pkt.length) :
    numAt pkt i 4 = ((pkt[i].toNat * 256 + pkt[i + 1].toNat) * 256 + pkt[i + 2].toNat) * 256 + pkt[i + 3].toNat := by
  unfold numAt
  rw [take_drop_succ _ _ _ (by omega), take_drop_succ _ _ _ (by omega), take_drop_succ _ _ _ (by omega),
    take_drop_succ _ _ _ (by omega)]
  simp

/-- One record of `dw_get_a_dnsttl`, with the packet reads evaluated. -/
theorem getADnsttl_step {s : DwStr} (h : Usable s) (depth o max e : Nat) (hm : max ≤ 31536000)
    (he : getDnEnd s o = .ok e) (hl : e + 8 ≤ s.contents.length) :
    (2147483648 ≤ numAt s.contents (e + 4) 4 → getADnsttl s (depth + 1) o max = .ok 31536000) ∧
    (numAt s.contents (e + 4) 4 < 2147483648 →
      getADnsttl s (depth + 1) o max =
        let v := numAt s.contents (e + 4) 4
        let out := if v < 60 then 60 else if v > max then max else v
        if numAt s.contents e 2 = 5 then
          (do let o2 ← s.getDnEnd (e + 10)
              if o2 > s.len then .err else getADnsttl s depth o2 out)
        else .ok out) := by
  have hc := h.clen
  have pk : ∀ i, i < 8 → ∃ hh : e + i < s.contents.length, s.peek (e + i) = .ok s.contents[e + i] :=
    fun i hi => ⟨by omega, peek_contents (by omega)⟩
  obtain ⟨_, p0⟩ := pk 0 (by omega)
  obtain ⟨_, p1⟩ := pk 1 (by omega)
  obtain ⟨_, p4⟩ := pk 4 (by omega)
  obtain ⟨_, p5⟩ := pk 5 (by omega)
  obtain ⟨_, p6⟩ := pk 6 (by omega)
  obtain ⟨_, p7⟩ := pk 7 (by omega)
  have hmm : (if max > 31536000 then 31536000 else max) = max := if_neg (by omega)
  have n2 := numAt_two (pkt := s.contents) (i := e) (by omega)
  have n4 := numAt_four (pkt := s.contents) (i := e + 4) (by omega)
  simp only [Nat.add_assoc, Nat.reduceAdd] at n4
  simp only [Nat.add_zero] at p0
  have b5 := (s.contents[e + 5]).toNat_lt
  have b6 := (s.contents[e + 6]).toNat_lt
  have b7 := (s.contents[e + 7]).toNat_lt
  constructor
  · intro hv
    have hr : s.contents[e + 4] > 0x7f := by
      simp only [GT.gt, UInt8.lt_iff_toNat_lt]; simp; omega
    simp only [getADnsttl, h.sane, Bool.not_true, Bool.false_eq_true, if_false, he, Res.ok_bind]
    rw [if_neg (by omega), p0, p1, p4]
    simp only [Res.ok_bind]
    rw [if_pos hr]
  · intro hv
    have hr : ¬ s.contents[e + 4] > 0x7f := by
      simp only [GT.gt, UInt8.lt_iff_toNat_lt]; simp; omega
    simp only [getADnsttl, h.sane, Bool.not_true, Bool.false_eq_true, if_false, he, Res.ok_bind]
    rw [if_neg (by omega), p0, p1, p4]
    simp only [Res.ok_bind]
    rw [if_neg hr, p5, p6, p7]
    simp only [Res.ok_bind, hmm]
    rw [n4, n2]

/-- Smallest of a list of numbers and a start value. -/
def least (m : Nat) (ts : List Nat) : Nat := ts.foldl min m

theorem least_le (ts : List Nat) (m : Nat) : least m ts ≤ m := by
  induction ts generalizing m with
  | nil => exact Nat.le_refl _
  | cons t ts ih => exact Nat.le_trans (ih _) (Nat.min_le_left _ _)

theorem least_max60 (ts : List Nat) (m : Nat) : Nat.max 60 (least (Nat.max 60 m) ts) = Nat.max 60 (least m ts) := by
  induction ts generalizing m with
  | nil => simp only [least, List.foldl_nil, Nat.max_def]; split_ifs <;> omega
  | cons t ts ih =>
    have h1 : least (Nat.max 60 m) (t :: ts) = least (min (Nat.max 60 m) t) ts := rfl
    have h2 : least m (t :: ts) = least (min m t) ts := rfl
    rw [h1, h2, ← ih, ← ih (min m t)]
    congr 2
    simp only [Nat.max_def, Nat.min_def]
    split_ifs <;> omega

/-- C13 (value).  For a chain of aliases ending in another record, no longer than
the depth allowed and with all lifetimes below 2^31, the lifetime computed is the
smallest one on the chain, cut to the maximum passed in and raised to 60. -/
theorem getADnsttl_chain {s : DwStr} (h : Usable s) {o : Nat} {ts : List Nat} (hc : TtlChain s.contents o ts)
    (hts : ∀ t ∈ ts, t < 2147483648) : ∀ (depth max : Nat), ts.length ≤ depth → 60 ≤ max → max ≤ 31536000 →
    getADnsttl s depth o max = .ok (Nat.max 60 (least max ts)) := by
  have hl := h.clen
  induction hc with
  | last he h8 hty =>
    intro depth max hd h60 hm
    cases depth with
    | zero => simp at hd
    | succ d =>
      rw [(getADnsttl_step h d _ max _ hm (getDnEnd_of h he) h8).2 (hts _ (by simp))]
      simp only [if_neg hty, least, List.foldl_cons, List.foldl_nil]
      congr 1
      simp only [Nat.max_def, Nat.min_def]
      split_ifs <;> omega
  | alias he h8 hty he2 hle hch ih =>
    intro depth max hd h60 hm
    cases depth with
    | zero => simp at hd
    | succ d =>
      rename_i o e o2 ts
      rw [(getADnsttl_step h d _ max _ hm (getDnEnd_of h he) h8).2 (hts _ (by simp))]
      simp only [if_pos hty, getDnEnd_of h he2, Res.ok_bind]
      rw [if_neg (by omega)]
      generalize numAt s.contents (e + 4) 4 = v at *
      have hout : (if v < 60 then 60 else if v > max then max else v) = Nat.max 60 (min max v) := by
        simp only [Nat.max_def, Nat.min_def]; split_ifs <;> omega
      rw [hout, ih (fun t ht => hts t (by simp [ht])) d _ (by simp at hd; omega) (Nat.le_max_left _ _)
        (by simp only [Nat.max_def, Nat.min_def]; split_ifs <;> omega)]
      rw [least_max60]
      rfl

/-- C13 (bound).  Whatever the packet, the offset and the depth, computing the
lifetime never reads outside the string and gives an error or at most one year
(31536000 seconds). -/
theorem getADnsttl_bound {s : DwStr} (h : Usable s) : ∀ (depth o max : Nat), max ≤ 31536000 →
    getADnsttl s depth o max = .err ∨ ∃ v, getADnsttl s depth o max = .ok v ∧ v ≤ 31536000 := by
  intro depth
  have hl := h.clen
  induction depth with
  | zero => intro o max hm; right; exact ⟨max, by simp [getADnsttl, h.sane], hm⟩
  | succ d ih =>
    intro o max hm
    have hend : getDnEnd s o = .err ∨ ∃ e, getDnEnd s o = .ok e := by
      rcases getDnEnd_exact h o with ⟨e, _, he⟩ | ⟨_, he | ⟨e, he, _⟩⟩
      · exact Or.inr ⟨e, he⟩
      · exact Or.inl he
      · exact Or.inr ⟨e, he⟩
    rcases hend with he | ⟨e, he⟩
    · left; simp [getADnsttl, h.sane, he]
    · by_cases h8 : e + 8 ≤ s.contents.length
      · obtain ⟨s1, s2⟩ := getADnsttl_step h d o max e hm he h8
        by_cases hv : 2147483648 ≤ numAt s.contents (e + 4) 4
        · right; exact ⟨_, s1 hv, Nat.le_refl _⟩
        · rw [s2 (by omega)]
          simp only
          generalize numAt s.contents (e + 4) 4 = v
          have hout : (if v < 60 then 60 else if v > max then max else v) ≤ 31536000 := by
            split_ifs <;> omega
          split
          · have hend2 : getDnEnd s (e + 10) = .err ∨ ∃ e', getDnEnd s (e + 10) = .ok e' := by
              rcases getDnEnd_exact h (e + 10) with ⟨e', _, he⟩ | ⟨_, he | ⟨e', he, _⟩⟩
              · exact Or.inr ⟨e', he⟩
              · exact Or.inl he
              · exact Or.inr ⟨e', he⟩
            rcases hend2 with he2 | ⟨e', he2⟩
            · left; simp [he2]
            · simp only [he2, Res.ok_bind]
              split
              · exact Or.inl rfl
              · exact ih _ _ hout
          · right; exact ⟨_, rfl, hout⟩
      · left
        simp only [getADnsttl, h.sane, Bool.not_true, Bool.false_eq_true, if_false, he, Res.ok_bind]
        rw [if_pos (by omega)]

/-- An alias with lifetime 3600 followed by an address with lifetime 300. -/
def exTtl : DwStr := { len := 29, max := 31, buf :=
  [0, 0, 5, 0, 1, 0, 0, 14, 16, 0, 3, 1, 97, 0,
   0, 0, 1, 0, 1, 0, 0, 1, 44, 0, 4, 1, 2, 3, 4, 0, 0, 0, 0] }
example : Usable exTtl ∧ TtlChain exTtl.contents 0 [3600, 300] ∧ getADnsttl exTtl 32 0 31536000 = .ok 300 :=
  ⟨⟨rfl, by decide, by decide⟩,
   .alias (e := 1) (o2 := 14) ⟨[], 0, _, rfl, by simp [LabelsOk], by simp, Or.inl ⟨rfl, rfl⟩⟩ (by decide) (by decide)
     ⟨[[97]], 0, _, rfl, by simp [LabelsOk], by simp, Or.inl ⟨rfl, rfl⟩⟩ (by decide)
     (.last (e := 15) ⟨[], 0, _, rfl, by simp [LabelsOk], by simp, Or.inl ⟨rfl, rfl⟩⟩ (by decide) (by decide)),
   by decide +kernel⟩

/-- Finding: a record with the top bit of its lifetime set makes the whole chain
cached for a year, even when an earlier record of the chain lives one minute
(RFC 2181 asks to treat such lifetimes as zero). -/
theorem ttl_top_bit_year : ∃ s : DwStr, Usable s ∧ TtlChain s.contents 0 [60, 2147483648] ∧
    getADnsttl s 32 0 31536000 = .ok 31536000 :=
  ⟨{ len := 29, max := 31, buf :=
    [0, 0, 5, 0, 1, 0, 0, 0, 60, 0, 3, 1, 97, 0,
     0, 0, 1, 0, 1, 128, 0, 0, 0, 0, 4, 1, 2, 3, 4, 0, 0, 0, 0] },
   ⟨rfl, by decide, by decide⟩,
   .alias (e := 1) (o2 := 14) ⟨[], 0, _, rfl, by simp [LabelsOk], by simp, Or.inl ⟨rfl, rfl⟩⟩ (by decide) (by decide)
     ⟨[[97]], 0, _, rfl, by simp [LabelsOk], by simp, Or.inl ⟨rfl, rfl⟩⟩ (by decide)
     (.last (e := 15) ⟨[], 0, _, rfl, by simp [LabelsOk], by simp, Or.inl ⟨rfl, rfl⟩⟩ (by decide) (by decide)),
   by decide +kernel⟩

end Dw
