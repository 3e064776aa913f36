import Verif.Deadwood.Str2Lemmas
import Verif.Spec.Wire

/-!
# Properties C09–C13: DNS names in Deadwood strings and packets
-/

namespace Dw
open DwStr Spec

/-! ## C09: text names to wire form -/

/-- Splitting of a text at dots as the conversion loop does it (lemma vocabulary):
`cur` is the label read so far. -/
def parseDots : List UInt8 → List UInt8 → Option (List (List UInt8))
  | _, [] => some []
  | cur, x :: xs =>
    if x = 46 then
      if cur = [] then none else (parseDots [] xs).map (cur :: ·)
    else if cur.length + 1 > 63 then none else parseDots (cur ++ [x]) xs

theorem append_cons_inj {α : Type} {x : α} : ∀ {a c b d : List α}, x ∉ a → x ∉ c →
    a ++ x :: b = c ++ x :: d → a = c ∧ b = d := by
  intro a
  induction a with
  | nil =>
    intro c b d _ hc h
    cases c with
    | nil => simpa using h
    | cons y c => simp only [List.nil_append, List.cons_append, List.cons.injEq] at h; simp [h.1] at hc
  | cons y a ih =>
    intro c b d ha hc h
    cases c with
    | nil => simp only [List.nil_append, List.cons_append, List.cons.injEq] at h; simp [h.1] at ha
    | cons z c =>
      simp only [List.cons_append, List.cons.injEq] at h
      simp only [List.mem_cons, not_or] at ha hc
      obtain ⟨h1, h2⟩ := ih ha.2 hc.2 h.2
      exact ⟨by rw [h.1, h1], h2⟩

theorem take_set_set {l P cur : List UInt8} {p : Nat} {c x : UInt8}
    (h1 : l.take p = P) (h2 : (l.drop (p + 1)).take cur.length = cur)
    (h3 : p + cur.length + 1 < l.length) :
    ((l.set p c).set (p + cur.length + 1) x).take (p + cur.length + 1) = P ++ c :: cur := by
  rw [List.take_set_of_le (by omega)]
  have hp : p < l.length := by omega
  rw [show p + cur.length + 1 = (p + 1) + cur.length by omega, List.take_add,
    List.drop_set_of_lt (by omega), h2, List.take_add_one, List.take_set_of_le (by omega), h1]
  simp [hp]

theorem drop_take_snoc {l cur : List UInt8} {p : Nat} {x : UInt8}
    (h2 : (l.drop (p + 1)).take cur.length = cur) (h3 : p + cur.length + 1 < l.length) :
    ((l.set (p + cur.length + 1) x).drop (p + 1)).take (cur.length + 1) = cur ++ [x] := by
  rw [List.take_add_one, List.take_drop]
  rw [List.take_set_of_le (by omega), ← List.take_drop, h2]
  congr 1
  rw [List.getElem?_drop, show p + 1 + cur.length = p + cur.length + 1 by omega]
  simp [h3]

theorem convertLoop_eq {inp : DwStr} (h : Usable inp) : ∀ (n a place : Nat) (cur P : List UInt8) (out : DwStr),
    a + n = inp.len → place + cur.length = a → out.max = inp.len + 4 → out.buf.length = inp.len + 6 →
    P.length = place →
    out.buf.take place = P → (out.buf.drop (place + 1)).take cur.length = cur →
    (parseDots cur (inp.contents.drop a) = none → convertLoop inp n a place cur.length out = .err) ∧
    (∀ ls, parseDots cur (inp.contents.drop a) = some ls →
      ∃ out', convertLoop inp n a place cur.length out = .ok out' ∧
        out'.len = out.len ∧ out'.max = out.max ∧ out'.buf.length = out.buf.length ∧
        (P ++ encLabels ls).length ≤ out.buf.length ∧
        out'.buf.take (P ++ encLabels ls).length = P ++ encLabels ls) := by
  intro n
  induction n with
  | zero =>
    intro a place cur P out h1 h2 h3 h4 h5 h6 h7
    have hnil : inp.contents.drop a = [] := List.drop_eq_nil_of_le (by rw [h.clen]; omega)
    rw [hnil]
    refine ⟨by simp [parseDots], ?_⟩
    intro ls hls
    simp only [parseDots, Option.some.injEq] at hls
    subst hls
    exact ⟨out, rfl, rfl, rfl, rfl, by simp [encLabels]; omega, by simp [encLabels, h5, h6]⟩
  | succ n ih =>
    intro a place cur P out h1 h2 h3 h4 h5 h6 h7
    obtain ⟨x, hp, hd, _⟩ := contents_drop h (i := a) (by omega)
    rw [hd]
    simp only [convertLoop, hp, Res.ok_bind, parseDots]
    by_cases hx : x = 46
    · rw [if_pos hx, if_pos hx]
      by_cases hc : cur = []
      · subst hc; simp
      · have hcl : cur.length ≠ 0 := fun e => hc (List.length_eq_zero_iff.1 e)
        rw [if_neg hcl, if_neg hc]
        simp only [pokeIf]
        rw [if_pos (by omega), poke_ok _ (by omega)]
        simp only [Res.ok_bind]
        rw [if_pos (by omega), poke_ok _ (by simp; omega)]
        simp only [Res.ok_bind]
        have key := ih (a + 1) (a + 1) [] (P ++ byte cur.length :: cur)
          { out with buf := (out.buf.set place (byte cur.length)).set (a + 1) x }
          (by omega) (by simp) h3 (by simpa using h4) (by simp; omega)
          (by
            simp only
            have := take_set_set (c := byte cur.length) (x := x) h6 h7 (by omega)
            rw [h2] at this; exact this)
          (by simp)
        simp only [List.length_nil] at key
        constructor
        · intro hn
          apply key.1
          simpa using hn
        · intro ls hls
          simp only [Option.map_eq_some_iff] at hls
          obtain ⟨ls', hl, rfl⟩ := hls
          obtain ⟨out', k1, k2, k3, k4, k5, k6⟩ := key.2 ls' hl
          refine ⟨out', k1, k2, k3, ?_, ?_, ?_⟩
          · rw [k4]; simp
          · simp [encLabels_cons] at k5 ⊢; omega
          · simpa [encLabels_cons, byte, Nat.add_assoc] using k6
    · rw [if_neg hx, if_neg hx]
      simp only [pokeIf]
      rw [if_pos (show a + 1 < out.max by omega), poke_ok _ (by omega)]
      simp only [Res.ok_bind]
      by_cases hc : cur.length + 1 > 63
      · rw [if_pos hc, if_pos hc]; simp
      · rw [if_neg hc, if_neg hc]
        have key := ih (a + 1) place (cur ++ [x]) P { out with buf := out.buf.set (a + 1) x }
          (by omega) (by simp; omega) h3 (by simpa using h4) h5
          (by simp only; rw [List.take_set_of_le (by omega)]; exact h6)
          (by
            simp only [List.length_append, List.length_cons, List.length_nil]
            have := drop_take_snoc (x := x) h7 (by omega)
            rw [h2] at this; exact this)
        simpa using key

/-- What `parseDots` accepts on texts ending in a dot. -/
theorem parseDots_some : ∀ (t cur : List UInt8) (ls : List (List UInt8)),
    cur.length ≤ 63 → (46 : UInt8) ∉ cur →
    (cur ++ t = [] ∨ ∃ t', cur ++ t = t' ++ [46]) →
    (parseDots cur t = some ls ↔
      cur ++ t = dotted ls ∧ LabelsOk ls ∧ ∀ l ∈ ls, (46 : UInt8) ∉ l) := by
  intro t
  induction t with
  | nil =>
    intro cur ls hl hd he
    have hcur : cur = [] := by
      rcases he with he | ⟨t', he⟩
      · simpa using he
      · exfalso; apply hd; rw [List.append_nil] at he; rw [he]; simp
    subst hcur
    simp only [parseDots, Option.some.injEq, List.append_nil]
    constructor
    · rintro rfl; exact ⟨rfl, by simp [LabelsOk], by simp⟩
    · rintro ⟨h1, _, _⟩
      cases ls with
      | nil => rfl
      | cons l ls => rw [dotted_cons] at h1; simp at h1
  | cons x xs ih =>
    intro cur ls hl hd he
    have he' : ∃ t', cur ++ x :: xs = t' ++ [46] := by
      rcases he with he | he
      · simp at he
      · exact he
    simp only [parseDots]
    by_cases hx : x = 46
    · subst hx
      rw [if_pos rfl]
      by_cases hc : cur = []
      · rw [if_pos hc]
        subst hc
        simp only [List.nil_append]
        constructor
        · intro h; cases h
        · rintro ⟨h1, h2, _⟩
          cases ls with
          | nil => simp [dotted] at h1
          | cons l ls =>
            have := h2.head
            rw [dotted_cons] at h1
            cases l with
            | nil => simp at this
            | cons y l =>
              rename_i h3
              exfalso
              simp only [List.cons_append, List.cons.injEq] at h1
              exact h3 (y :: l) (by simp) (by simp [← h1.1])
      · rw [if_neg hc]
        have hxs : xs = [] ∨ ∃ t', xs = t' ++ [46] := by
          rcases List.eq_nil_or_concat xs with rfl | ⟨p, y, rfl⟩
          · exact Or.inl rfl
          · obtain ⟨t', e⟩ := he'
            right; refine ⟨p, ?_⟩
            rw [List.concat_eq_append] at e ⊢
            have e2 : (cur ++ 46 :: p) ++ [y] = t' ++ [46] := by simpa using e
            have := (List.append_inj' e2 rfl).2
            rw [this]
        simp only [Option.map_eq_some_iff]
        constructor
        · rintro ⟨ls', h1, rfl⟩
          obtain ⟨h2, h3, h4⟩ := (ih [] ls' (by simp) (by simp) (by simpa using hxs)).1 h1
          refine ⟨by rw [dotted_cons]; simp at h2; rw [h2], ?_, ?_⟩
          · intro l hl'
            simp only [List.mem_cons] at hl'
            rcases hl' with rfl | hl'
            · exact ⟨List.length_pos_iff.2 hc, hl⟩
            · exact h3 l hl'
          · intro l hl'
            simp only [List.mem_cons] at hl'
            rcases hl' with rfl | hl'
            · exact hd
            · exact h4 l hl'
        · rintro ⟨h1, h2, h3⟩
          cases ls with
          | nil => simp [dotted] at h1
          | cons l ls =>
            rw [dotted_cons] at h1
            have hl46 := h3 l (by simp)
            have : cur = l ∧ xs = dotted ls := by
              exact append_cons_inj hd hl46 h1
            obtain ⟨rfl, rfl⟩ := this
            refine ⟨ls, ?_, rfl⟩
            exact (ih [] ls (by simp) (by simp) (by simpa using hxs)).2
              ⟨rfl, h2.tail, fun l hl => h3 l (by simp [hl])⟩
    · rw [if_neg hx]
      by_cases hc : cur.length + 1 > 63
      · rw [if_pos hc]
        constructor
        · intro h; cases h
        · rintro ⟨h1, h2, h3⟩
          exfalso
          cases ls with
          | nil => simp [dotted] at h1
          | cons l ls =>
            rw [dotted_cons] at h1
            have hlen := h2.head.2
            -- the first dot of the text comes after `cur ++ [x]`
            have h1' : (cur ++ [x]) ++ xs = l ++ 46 :: dotted ls := by simpa using h1
            have hpre : l.length < (cur ++ [x]).length := by simp; omega
            have : (46 : UInt8) ∈ cur ++ [x] := by
              have hg : ((cur ++ [x]) ++ xs)[l.length]? = some 46 := by
                rw [h1']; simp
              rw [List.getElem?_append_left hpre] at hg
              exact List.mem_of_getElem? hg
            simp only [List.mem_append, List.mem_singleton] at this
            rcases this with h | h
            · exact hd h
            · exact hx h.symm
      · rw [if_neg hc]
        have := ih (cur ++ [x]) ls (by simp; omega) (by
          simp only [List.mem_append, List.mem_singleton, not_or]
          exact ⟨hd, fun e => hx e.symm⟩) (Or.inr (by simpa using he'))
        rw [this]; simp

/-- C09.  Converting a text name gives a string `out` exactly when the text is a
lone dot (then `out` is the root name), or is made of one or more labels of 1 to
63 bytes each followed by a dot (then `out` is the wire form of these labels). In
all other cases an error is reported; no access leaves a buffer. -/
theorem dnsnameConvert_exact {inp : DwStr} (h : Usable inp) (junk : List UInt8)
    (hs : inp.contents.length + 4 < 134217728) :
    (∃ ls, ls ≠ [] ∧ inp.contents = dotted ls ∧ LabelsOk ls ∧ (∀ l ∈ ls, (46 : UInt8) ∉ l) ∧
      ∃ out, dnsnameConvert inp junk = .ok out ∧ Usable out ∧ out.contents = encName ls) ∨
    (inp.contents = [46] ∧ ∃ out, dnsnameConvert inp junk = .ok out ∧ Usable out ∧ out.contents = encName []) ∨
    (dnsnameConvert inp junk = .err ∧ inp.contents ≠ [46] ∧
      ¬ ∃ ls, ls ≠ [] ∧ inp.contents = dotted ls ∧ LabelsOk ls ∧ ∀ l ∈ ls, (46 : UInt8) ∉ l) := by
  have hl := h.clen
  have hbuf := Usable_buf h
  rw [hl] at hs
  have hnodot : (¬ ∃ t', inp.contents = t' ++ [46]) →
      inp.contents ≠ [46] ∧ ¬ ∃ ls, ls ≠ [] ∧ inp.contents = dotted ls ∧ LabelsOk ls ∧ ∀ l ∈ ls, (46 : UInt8) ∉ l := by
    intro hn
    refine ⟨fun e => hn ⟨[], by simpa using e⟩, ?_⟩
    rintro ⟨ls, h1, h2, _⟩
    rcases List.eq_nil_or_concat ls with rfl | ⟨p, y, rfl⟩
    · exact h1 rfl
    · exact hn ⟨p.flatMap (fun l => l ++ [46]) ++ y, by rw [h2]; simp [dotted]⟩
  by_cases hz : inp.len = 0
  · right; right
    have hc : inp.contents = [] := by rw [← List.length_eq_zero_iff, hl]; exact hz
    refine ⟨?_, hnodot (by rintro ⟨t', e⟩; rw [hc] at e; simp at e)⟩
    simp [dnsnameConvert, endsInDot, h.sane, hz]
  have hlast : ∃ t' y, inp.contents = t' ++ [y] := by
    rcases List.eq_nil_or_concat inp.contents with e | ⟨p, y, e⟩
    · rw [e] at hl; simp at hl; omega
    · exact ⟨p, y, by rw [e, List.concat_eq_append]⟩
  obtain ⟨t', y, hty⟩ := hlast
  have hpk : inp.peek (inp.len - 1) = .ok y := by
    have hlt : inp.len - 1 < inp.contents.length := by rw [hl]; omega
    rw [peek_contents hlt]
    congr 1
    have : inp.len - 1 = t'.length := by rw [← hl, hty]; simp
    simp [this, hty]
  have hdot : inp.endsInDot = .ok (decide (y = 46)) := by
    simp [endsInDot, h.sane, hz, hpk]
  by_cases hy : y = 46
  · subst hy
    obtain ⟨out0, ho⟩ := create_eq (size := inp.len + 4) junk hs
    obtain ⟨g1, g2, g3, _⟩ := create_ok ho
    unfold WF at g1
    obtain ⟨x, hp, hd, _⟩ := contents_drop h (i := 0) (by omega)
    simp only [List.drop_zero, Nat.zero_add] at hd
    by_cases hx : x = 46
    · subst hx
      by_cases h1 : inp.len = 1
      · right; left
        have hc : inp.contents = [46] := by
          rw [hd]
          have := hl; rw [hd, h1] at this; simp at this
          rw [List.drop_eq_nil_of_le (by omega)]
        refine ⟨hc, { out0 with len := 1, buf := out0.buf.set 0 0 }, ?_, ⟨?_, ?_, ?_⟩, ?_⟩
        · simp only [dnsnameConvert, h.sane, Bool.not_true, Bool.false_eq_true, if_false, hdot, Res.ok_bind,
            decide_true, hp, if_true, ne_eq, h1, not_true]
          rw [← h1, ho]
          simp only [Res.ok_bind]
          rw [if_pos (by omega), poke_ok _ (by omega)]
          rfl
        · unfold WF; simp; omega
        · simp only; omega
        · simp only; omega
        · cases hb : out0.buf with
          | nil => rw [hb] at g1; simp at g1
          | cons b bs => simp [contents, encName, encLabels]
      · right; right
        refine ⟨by simp [dnsnameConvert, h.sane, hdot, ho, hp, h1], ?_, ?_⟩
        · intro e; rw [e] at hl; simp at hl; omega
        · rintro ⟨ls, a1, a2, a3, a4⟩
          cases ls with
          | nil => exact a1 rfl
          | cons l ls =>
            rw [dotted_cons] at a2
            cases l with
            | nil => have := a3.head.1; simp at this
            | cons z l =>
              rw [hd] at a2
              simp only [List.cons_append, List.cons.injEq] at a2
              exact a4 (z :: l) (by simp) (by simp [← a2.1])
    · have key := convertLoop_eq h inp.len 0 0 [] [] { out0 with len := inp.len + 1 } (by omega) rfl
        (by simp [g3]) (by simp; omega) rfl (by simp) (by simp)
      simp only [List.length_nil, List.drop_zero, List.nil_append] at key
      have hspec := fun ls => parseDots_some inp.contents [] ls (by simp) (by simp) (Or.inr ⟨t', by simpa using hty⟩)
      simp only [List.nil_append] at hspec
      cases hpd : parseDots [] inp.contents with
      | none =>
        right; right
        refine ⟨by simp [dnsnameConvert, h.sane, hdot, ho, hp, hx, key.1 hpd], ?_, ?_⟩
        · intro e; rw [e] at hd; simp at hd; exact hx hd.symm
        · rintro ⟨ls, _, a2, a3, a4⟩
          have := (hspec ls).2 ⟨a2, a3, a4⟩
          rw [hpd] at this; cases this
      | some ls =>
        left
        obtain ⟨a2, a3, a4⟩ := (hspec ls).1 hpd
        have hne : ls ≠ [] := by
          rintro rfl; rw [hd] at a2; simp [dotted] at a2
        obtain ⟨out', k1, k2, k3, k4, k5, k6⟩ := key.2 ls hpd
        have hlen : (encLabels ls).length = inp.len := by
          rw [← hl, a2]
          clear a2 a3 a4 hpd k1 k5 k6 hne
          induction ls with
          | nil => rfl
          | cons l ls ih => rw [encLabels_cons, dotted_cons]; simp [ih]; omega
        rw [hlen] at k6
        have k2' : out'.len = inp.len + 1 := k2
        have k3' : out'.max = out0.max := k3
        have k4' : out'.buf.length = out0.buf.length := k4
        refine ⟨ls, hne, a2, a3, a4, { out' with buf := out'.buf.set inp.len 0 }, ?_, ⟨?_, ?_, ?_⟩, ?_⟩
        · simp only [dnsnameConvert, h.sane, Bool.not_true, Bool.false_eq_true, if_false, hdot, Res.ok_bind,
            decide_true, ho, hp, if_neg hx, k1, k2']
          simp only [pokeIf, Nat.add_sub_cancel]
          rw [if_pos (by omega), poke_ok _ (by omega), k2']
        · unfold WF; simp; omega
        · simp only; omega
        · simp only; omega
        · simp only [contents, k2']
          rw [List.take_add_one, List.take_set_of_le (by omega), k6]
          have : inp.len < out'.buf.length := by omega
          simp [encName, this]
  · right; right
    refine ⟨by simp [dnsnameConvert, h.sane, hdot, hy], hnodot ?_⟩
    rintro ⟨t2, e⟩
    rw [hty] at e
    exact hy (by have := (List.append_inj' e rfl).2; simpa using this)

/-- "a.bc." -/
def exDot : DwStr := { len := 5, max := 7, buf := [97, 46, 98, 99, 46, 0, 0, 0, 0] }
example : Usable exDot ∧ exDot.contents = dotted [[97], [98, 99]] ∧
    ∃ out, dnsnameConvert exDot [] = .ok out ∧ out.contents = [1, 97, 2, 98, 99, 0] :=
  ⟨⟨rfl, by decide, by decide⟩, by decide, _, rfl, by decide⟩

end Dw
