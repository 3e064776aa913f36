import Verif.Deadwood.AnySame
/-!
# Lemmas: taking anything apart is safe

`dwx_dissect_packet` on a string nobody has checked: its list of offsets may lead anywhere.
-/

namespace Dw
namespace Dissect
open DwStr Spec

/-- Offsets are 16 bit numbers. -/
def Small (l : List (Nat × Nat)) : Prop := ∀ c ∈ l, c.1 < 65536 ∧ c.2 < 65536

theorem fetchI_any {s : DwStr} (hs : Usable s) (o : Nat) (ho : o < 1000000) : ∃ v, fetchI s o = .ok v ∧ v < 65536 := by
  unfold fetchI
  rcases fetchU16_safe hs o (by omega) with e | ⟨v, e, hv⟩
  · rw [e]; exact ⟨-1, rfl, by omega⟩
  · rw [e]; exact ⟨v, rfl, by omega⟩

theorem fetchCell_any {s : DwStr} (hs : Usable s) (o : Int) (ho : 0 ≤ o ∧ o < 1000000000) : ∃ v, s.fetchCell o = .ok v ∧ v < 65536 := by
  unfold fetchCell
  rcases fetchU16_safe hs o (by omega) with e | ⟨v, e, hv⟩
  · rw [e]; exact ⟨_, rfl, by omega⟩
  · rw [e]; exact ⟨v, rfl, hv⟩

theorem placeOffsets_any {s : DwStr} (hs : Usable s) : ∀ (n : Nat) (off : Int) (acc : List (Nat × Nat)), off ≤ s.len → Small acc →
    Fine (placeOffsets s n off acc) fun r => r.1 ≤ s.len ∧ Small r.2 ∧ r.2.length = n + acc.length
  | 0, off, acc, h, ha => .ok ⟨h, ha, by simp⟩
  | n + 1, off, acc, h, ha => by
    have hlim := hs.lim
    have hlt := hs.lt
    unfold placeOffsets
    simp only
    split
    · exact .err
    · obtain ⟨v, e, hv⟩ := fetchCell_any hs (off - 2) (by omega)
      rw [e, Res.ok_bind]
      split
      · exact .err
      · obtain ⟨w, e, hw⟩ := fetchCell_any hs (off - 2 - 2) (by omega)
        rw [e, Res.ok_bind]
        refine (placeOffsets_any hs n (off - 2 - 2) ((w, v) :: acc) (by omega) (by
          intro c hc
          rcases List.mem_cons.1 hc with rfl | hc
          · exact ⟨hw, hv⟩
          · exact ha c hc)).mono fun r hr => ⟨hr.1, hr.2.1, ?_⟩
        rw [hr.2.2, List.length_cons]; omega

/-- What taking a string apart gives, whatever it holds. -/
structure AnyView (s : DwStr) (d : DnsStr) : Prop where
  packet : Usable d.packet
  same : d.packet.contents = s.contents
  an : Small d.an
  ns : Small d.ns
  ar : Small d.ar
  anLen : d.an.length < 65536
  arLen : d.ar.length < 65536
  nsLen : d.ns.length < 65536
  ends : Ends s
  count : s.fetchU16 ((s.len : Int) - 1 - 4) = .ok d.ns.length

theorem makeDnsStr_any {s : DwStr} (hs : Usable s) (junk : List UInt8) : Fine (makeDnsStr s junk) (AnyView s) := by
  have hlt := hs.lt; have hlim := hs.lim; have hcl := hs.clen
  have small0 : Small [] := fun c hc => by cases hc
  rw [makeDnsStr]
  simp only [hs.sane, Bool.not_true, Bool.false_eq_true, if_false]
  by_cases h : (s.len : Int) - 1 < 7
  · rw [if_pos h]; exact .err
  · rw [if_neg h]
    have hx := peek_contents (s := s) (i := ((s.len : Int) - 1).toNat) (by omega)
    rw [hx, Res.ok_bind]
    split
    · exact .err
    · rename_i hk
      have hends : Ends s := by
        have hlast : s.contents = s.contents.take (s.len - 1) ++ [s.contents[s.len - 1]'(by omega)] := by
          conv_lhs => rw [← List.take_append_drop (s.len - 1) s.contents]
          congr 1
          rw [List.drop_eq_getElem_cons (by omega)]
          rw [List.drop_of_length_le (by omega)]
        have e : ((s.len : Int) - 1).toNat = s.len - 1 := by omega
        simp only [e] at hk
        refine ⟨_, _, hlast, ?_⟩
        generalize s.contents[s.len - 1]'(by omega) = k at hk
        have : k = 0 ∨ k = 1 ∨ k = 2 := by
          by_cases h0 : k = 0
          · exact .inl h0
          by_cases h1 : k = 1
          · exact .inr (.inl h1)
          by_cases h2 : k = 2
          · exact .inr (.inr h2)
          exact absurd ⟨h0, h1, h2⟩ hk
        rcases this with rfl | rfl | rfl <;> decide
      refine (show Fine (s.fetchU16 ((s.len : Int) - 1 - 2)) (· < 65536) from fetchU16_safe hs _ (by omega)).bind fun a ha => ?_
      refine (show Fine (s.fetchU16 ((s.len : Int) - 1 - 4)) (fun b => s.fetchU16 ((s.len : Int) - 1 - 4) = .ok b ∧ b < 65536) from (by
        rcases fetchU16_safe hs ((s.len : Int) - 1 - 4) (by omega) with e | ⟨b, e, hb⟩
        · exact .inl e
        · exact .inr ⟨b, e, e, hb⟩)).bind fun b hb => ?_
      obtain ⟨hcount, hb⟩ := hb
      refine (show Fine (s.fetchU16 ((s.len : Int) - 1 - 6)) (· < 65536) from fetchU16_safe hs _ (by omega)).bind fun c hc => ?_
      obtain ⟨p, e, hp, -, hpc⟩ := copy_exact hs junk
      rw [e, Res.ok_bind]
      refine (placeOffsets_any hs a _ [] (by omega) small0).bind fun r hr => ?_
      obtain ⟨o1, l1⟩ := r
      refine (placeOffsets_any hs b _ [] hr.1 small0).bind fun r2 hr2 => ?_
      obtain ⟨o2, l2⟩ := r2
      refine (placeOffsets_any hs c _ [] hr2.1 small0).bind fun r3 hr3 => ?_
      obtain ⟨o3, l3⟩ := r3
      have g1 := hr.2.2; have g2 := hr2.2.2; have g3 := hr3.2.2
      simp only [List.length_nil, Nat.add_zero] at g1 g2 g3
      exact .ok ⟨hp, hpc, hr3.2.1, hr2.2.1, hr.2.1, by simp only; omega, by simp only; omega, by simp only; omega, hends,
        by rw [hcount]; simp only; rw [g2]⟩

theorem marks_any {inp : DwStr} (hi : Usable inp) : ∀ (l : List (Nat × Nat)), Small l →
    ∃ ms, marks inp l = .ok ms ∧ ms.length = l.length
  | [], _ => ⟨[], rfl, rfl⟩
  | c :: cs, h => by
    obtain ⟨v, e, -⟩ := fetchI_any hi c.2 (by have := (h c (by simp)).2; omega)
    obtain ⟨ms, e2, h2⟩ := marks_any hi cs fun x hx => h x (by simp [hx])
    simp only [marks, e, e2, Res.ok_bind]
    exact ⟨_, rfl, by simp [h2]⟩

theorem anyLoop_any {inp query : DwStr} (hi : Usable inp) (hq : Usable query) (an : List (Nat × Nat)) :
    ∀ (l : List ((Nat × Nat) × Int)), (∀ c ∈ l, c.1.2 < 65536) → ∀ (i chain : Nat) (use : Bool),
    ∃ r, anyLoop inp query an l i chain use = .ok r
  | [], _, _, _, _ => ⟨[], rfl⟩
  | (c, m) :: rest, h, i, chain, use => by
    have ih := fun (i chain : Nat) (use : Bool) => anyLoop_any hi hq an rest (fun x hx => h x (by simp [hx])) i chain use
    obtain ⟨mine, e1⟩ := isSame_safe hq hi 0 c.1
    obtain ⟨t, e2, -⟩ := fetchI_any hi c.2 (by have := h (c, m) (by simp); simp only at this; omega)
    obtain ⟨next, e3⟩ := isNext_safe hi an chain c.1
    simp only [anyLoop, e1, e2, e3, Res.ok_bind]
    split
    · obtain ⟨r, e⟩ := ih (i + 1) chain false
      rw [e]; exact ⟨_, rfl⟩
    split
    · obtain ⟨r, e⟩ := ih (i + 1) (chain + 1) use
      rw [e]; exact ⟨_, rfl⟩
    split
    · obtain ⟨r, e⟩ := ih (i + 1) (chain + 1) use
      rw [e]; exact ⟨_, rfl⟩
    split
    · obtain ⟨r, e⟩ := ih (i + 1) chain false
      rw [e]; exact ⟨_, rfl⟩
    · obtain ⟨r, e⟩ := ih (i + 1) chain use
      rw [e]; exact ⟨_, rfl⟩

theorem answerLoop_any {inp query b : DwStr} (hi : Usable inp) (hq : Usable query) (hb : Usable b) (qtype : Int)
    (an : List (Nat × Nat)) : ∀ (l : List ((Nat × Nat) × Int)), (∀ c ∈ l, c.1.2 < 65536) → ∀ (chain : Int) (use : Bool) (off : Int),
    ∃ r, answerLoop inp query b qtype an l chain use off = .ok r
  | [], _, _, _, _ => ⟨[], rfl⟩
  | (c, m) :: rest, h, chain, use, off => by
    have ih := fun (chain : Int) (use : Bool) (off : Int) =>
      answerLoop_any hi hq hb qtype an rest (fun x hx => h x (by simp [hx])) chain use off
    obtain ⟨mine, e1⟩ := isSame_safe hq hi 0 c.1
    obtain ⟨t, e2, -⟩ := fetchI_any hi c.2 (by have := h (c, m) (by simp); simp only at this; omega)
    obtain ⟨next, e3⟩ := isNext_safe hi an chain c.1
    simp only [answerLoop, e1, e2, e3, Res.ok_bind]
    split
    · obtain ⟨r, e⟩ := ih chain false (off + 1)
      rw [e]; exact ⟨_, rfl⟩
    split
    · obtain ⟨inside, e⟩ := inBailiwick_safe hi hb (dataOf an 0)
      rw [e, Res.ok_bind]
      obtain ⟨r, e⟩ := ih (if inside then chain + 1 else -1) (inside && use) (if inside then off + 1 else -2)
      rw [e]; exact ⟨_, rfl⟩
    split
    · obtain ⟨inside, e⟩ := inBailiwick_safe hi hb (dataOf an chain)
      rw [e, Res.ok_bind]
      obtain ⟨r, e⟩ := ih (if inside then chain + 1 else -1) (inside && use) (if inside then off + 1 else -2)
      rw [e]; exact ⟨_, rfl⟩
    split
    · obtain ⟨r, e⟩ := ih chain false (off + 1)
      rw [e]; exact ⟨_, rfl⟩
    · obtain ⟨r, e⟩ := ih chain use off
      rw [e]; exact ⟨_, rfl⟩

theorem zip_small {l : List (Nat × Nat)} (h : Small l) (ms : List Int) : ∀ c ∈ l.zip ms, c.1.1 < 65536 ∧ c.1.2 < 65536 := by
  intro c hc
  exact h c.1 (List.of_mem_zip hc).1

theorem arFind_any {inp query : DwStr} (hi : Usable inp) (hq : Usable query) (qtype : Int) : ∀ (l : List (Nat × Nat)), Small l →
    ∀ i, ∃ r, arFind inp query qtype l i = .ok r
  | [], _, _ => ⟨none, rfl⟩
  | c :: cs, h, i => by
    obtain ⟨s, e1⟩ := isSame_safe hq hi 0 c.1
    obtain ⟨t, e2, -⟩ := fetchI_any hi c.2 (by have := (h c (by simp)).2; omega)
    simp only [arFind, e1, e2, Res.ok_bind]
    split
    · exact ⟨_, rfl⟩
    · exact arFind_any hi hq qtype cs (fun x hx => h x (by simp [hx])) (i + 1)

theorem queryLoop_any {inp query : DwStr} (hi : Usable inp) (hq : Usable query) (o : Nat) : ∀ (n q : Nat), q ≤ query.len →
    ∃ r, queryLoop inp o query n q = .ok r
  | 0, _, _ => ⟨_, rfl⟩
  | n + 1, q, h => by
    unfold queryLoop
    obtain ⟨x, hx⟩ := peek_block hq (i := q) (by omega)
    rw [hx, Res.ok_bind]
    split
    · exact ⟨_, rfl⟩
    split
    · exact ⟨_, rfl⟩
    simp only
    split
    · exact ⟨_, rfl⟩
    · obtain ⟨r, hr⟩ := isSame_safe hi hq o (q + x.toNat + 1)
      rw [hr, Res.ok_bind]
      split
      · exact ⟨_, rfl⟩
      · exact queryLoop_any hi hq o n _ (by omega)

theorem inBailiwick_any {inp b query : DwStr} (hi : Usable inp) (hb : Usable b) (hq : Usable query) (o : Nat) :
    ∃ r, inBailiwick inp o b (some query) = .ok r := by
  have h1 : ∃ r, bailiwickQuery inp o query = .ok r := by
    unfold bailiwickQuery
    split
    · exact ⟨_, rfl⟩
    · obtain ⟨r, hr⟩ := isSame_safe hi hq o 0
      rw [hr, Res.ok_bind]
      split
      · exact ⟨_, rfl⟩
      · exact queryLoop_any hi hq o 1024 0 (by omega)
  obtain ⟨r, hr⟩ := h1
  unfold inBailiwick
  simp only [hr, Res.ok_bind]
  split
  · exact ⟨_, rfl⟩
  · unfold bailiwickTop
    split
    · exact ⟨_, rfl⟩
    · exact topLoop_safe hi hb _ _ (by omega)

/-! ### Pieces of the string -/

theorem dnEndLoop_within {s : DwStr} : ∀ (n o : Nat) {r : Nat}, o ≤ s.len + 63 → dnEndLoop s n o = .ok r → r ≤ s.len + 64
  | 0, o, r, h, e => by unfold dnEndLoop at e; cases e; omega
  | n + 1, o, r, h, e => by
    unfold dnEndLoop at e
    split at e
    · cases e
    · cases hx : s.peek o with
      | ub => rw [hx] at e; cases e
      | err => rw [hx] at e; cases e
      | ok x =>
        rw [hx] at e
        simp only [Res.ok_bind] at e
        split at e
        · cases e; omega
        split at e
        · cases e
        rename_i h63
        split at e
        · cases e; omega
        · have : x.toNat ≤ 63 := by
            have := UInt8.lt_iff_toNat_lt.not.1 h63
            have h : (63 : UInt8).toNat = 63 := rfl
            omega
          exact dnEndLoop_within n _ (by omega) e

theorem getDnEnd_any {s : DwStr} (hs : Usable s) (o : Nat) (ho : o ≤ s.len) : Fine (getDnEnd s o) (· ≤ s.len + 64) := by
  rcases getDnEnd_safe hs o with e | ⟨r, e⟩
  · exact .inl e
  · refine .inr ⟨r, e, ?_⟩
    unfold getDnEnd at e
    simp only [hs.sane, Bool.not_true, Bool.false_eq_true, if_false] at e
    exact dnEndLoop_within 200 o (by omega) e

/-- Sizes of strings that come from a packet. -/
def Short (s : DwStr) : Prop := s.len < 100000

theorem oneRr_any {s : DwStr} (hs : Usable s) (hsz : Short s) (o : Nat) (junk : List UInt8) : Fine (oneRr s o junk) Usable := by
  unfold Short at hsz
  unfold oneRr
  split
  · exact .err
  · refine (getDnEnd_any hs o (by omega)).bind fun e he => ?_
    split
    · exact .err
    · obtain ⟨v, e1, -⟩ := fetchI_any hs (e + 2) (by omega)
      rw [e1, Res.ok_bind]
      split
      · exact .err
      · refine (show Fine (s.fetchU16 (e + 8 : Nat)) (· < 65536) from fetchU16_safe hs _ (by omega)).bind fun rd hrd => ?_
        simp only
        obtain ⟨c, -, e2, hc, -⟩ := substr_any hs o (e + 10 + rd - o) 1 junk (by omega) (by omega) (by omega)
        have e2' : s.substr o ((e + 10 + rd - o : Nat) : Int) 1 junk = .ok c := e2
        rw [e2']
        exact .ok hc

theorem oneName_any {s : DwStr} (hs : Usable s) (hsz : Short s) (o : Nat) (junk : List UInt8) : Fine (oneName s o junk) Usable := by
  unfold Short at hsz
  unfold oneName
  split
  · exact .err
  · refine (getDnEnd_any hs o (by omega)).bind fun e he => ?_
    split
    · exact .err
    · obtain ⟨c, -, e2, hc, -⟩ := substr_any hs o (e - o) 1 junk (by omega) (by omega) (by omega)
      have e2' : s.substr o ((e - o : Nat) : Int) 1 junk = .ok c := e2
      rw [e2']
      exact .ok hc

theorem pushU16_any {s : DwStr} (v : Nat) (hs : Usable s) : Fine (pushU16 v s) fun t => Usable t ∧ t.max = s.max := by
  rcases pushU16_safe hs (v := v) with e | ⟨t, e, h1, h2, -⟩
  · exact .inl e
  · exact .inr ⟨t, e, h1, h2⟩

theorem append_any {c s : DwStr} (hc : Usable c) (hs : Usable s) : Fine (append c s) fun t => Usable t ∧ t.max = s.max ∧
    ∃ x, t.contents = s.contents ++ x := append_safe hc.live hs

theorem addchar_any {s : DwStr} (b : UInt8) (hs : Usable s) : Fine (addchar b s) fun t => Usable t ∧ t.max = s.max ∧
    t.contents = s.contents ++ [b] := by
  by_cases hf : s.contents.length + 1 < s.max
  · obtain ⟨t, h1, h2, h3, h4⟩ := (addchar_exact b hs).2 hf
    exact .inr ⟨t, h1, h2, h3, h4⟩
  · exact .inl ((addchar_exact b hs).1 (by omega))

/-- What a reply becomes: its last byte says what it is; `T` is what is known of a referral. -/
structure Kept (T : List UInt8 → Prop) (o : DwStr) : Prop where
  usable : Usable o
  refer : ∀ x, o.contents = x ++ [16] → T o.contents
  leads : ∀ x, o.contents = x ++ [17] → 257 ≤ o.max

theorem cnameLoop_any {s : DwStr} (hs : Usable s) (hsz : Short s) (junk : List UInt8) : ∀ (l : List ((Nat × Nat) × Int)) (out : DwStr)
    (final : Nat), Usable out → Fine (cnameLoop s junk l out final) fun r => Usable r.1 ∧ r.1.max = out.max
  | [], out, final, ho => .ok ⟨ho, rfl⟩
  | (c, m) :: rest, out, final, ho => by
    unfold cnameLoop
    split
    · exact cnameLoop_any hs hsz junk rest out final ho
    split
    · exact .err
    · refine (oneName_any hs hsz _ junk).bind fun t ht => ?_
      split
      · exact .err
      · simp only
        refine (pushU16_any _ ho).bind fun o1 h1 => ?_
        refine (append_any ht h1.1).bind fun o2 h2 => ?_
        refine (cnameLoop_any hs hsz junk rest o2 out.len h2.1).mono fun r hr => ⟨hr.1, ?_⟩
        rw [hr.2, h2.2.1, h1.2]

theorem cnameRefer_any {v : View} (hs : Usable v.look.packet) (hsz : Short v.look.packet) (h1 : 0 < v.look.an.length)
    (h2 : v.look.an.length < 65536) (junk : List UInt8) (T : List UInt8 → Prop) : Fine (cnameRefer v junk) (Kept T) := by
  unfold cnameRefer
  obtain ⟨o, e, ho, -, hm⟩ := create_usable (257 * v.look.an.length) junk (by omega) (by omega)
  rw [e, Res.ok_bind]
  refine (cnameLoop_any hs hsz junk _ o 0 ho).bind fun r hr => ?_
  obtain ⟨o1, f⟩ := r
  refine (pushU16_any _ hr.1).bind fun o2 h3 => ?_
  refine (addchar_any 17 h3.1).mono fun o4 h4 => ⟨h4.1, fun x hx => ?_, fun x hx => ?_⟩
  · rw [h4.2.2] at hx
    have := (List.append_inj' hx rfl).2
    simp at this
  · rw [h4.2.1, h3.2]
    have := hr.2
    simp only at this
    omega

theorem copySection_any {s : DwStr} (hs : Usable s) (hsz : Short s) {most : Nat} (hev : most % 2 = 0) (junk : List UInt8) :
    ∀ (l : List ((Nat × Nat) × Int)) (out : DwStr) (offs : List Nat) (n : Nat), Usable out → offs.length % 2 = 0 →
    Fine (copySection s most junk l out offs n) fun r => Usable r.1 ∧ r.2.1.length % 2 = 0
  | [], out, offs, n, ho, h => .ok ⟨ho, h⟩
  | (c, m) :: rest, out, offs, n, ho, h => by
    unfold copySection
    split
    · exact copySection_any hs hsz hev junk rest out offs n ho h
    · refine (oneRr_any hs hsz _ junk).bind fun t ht => ?_
      split
      · exact .err
      · rw [if_neg (by omega)]
        simp only
        refine (append_any ht ho).bind fun o1 h1 => ?_
        exact copySection_any hs hsz hev junk rest o1 _ (n + 1) h1.1 (by simp; omega)

theorem pushAll_any (os : List Nat) {s : DwStr} (hs : Usable s) : Fine (pushAll os s) fun t => Usable t ∧
    ∃ x, t.contents = s.contents ++ x := pushAll_safe os hs

theorem remake_any {v : View} (hs : Usable v.look.packet) (hsz : Short v.look.packet) {k : UInt8} (hk : k ≠ 16 ∧ k ≠ 17)
    (junk : List UInt8) (T : List UInt8 → Prop) : Fine (remake v k junk) (Kept T) := by
  unfold remake
  have hsz' := hsz
  unfold Short at hsz'
  simp only
  obtain ⟨o, e, ho, -, -⟩ := create_usable (v.look.packet.len + 1) junk (by omega) (by omega)
  rw [e, Res.ok_bind]
  have hev : ((v.look.an.length + v.look.ns.length + v.look.ar.length) * 2) % 2 = 0 := by omega
  refine (copySection_any hs hsz hev junk _ o [] 0 ho rfl).bind fun r hr => ?_
  obtain ⟨o1, f1, n1⟩ := r
  refine (copySection_any hs hsz hev junk _ o1 f1 0 hr.1 hr.2).bind fun r hr => ?_
  obtain ⟨o2, f2, n2⟩ := r
  refine (copySection_any hs hsz hev junk _ o2 f2 0 hr.1 hr.2).bind fun r hr => ?_
  obtain ⟨o3, f3, n3⟩ := r
  refine (pushAll_any _ hr.1).bind fun o4 h4 => ?_
  refine (pushU16_any _ h4.1).bind fun o5 h5 => ?_
  refine (pushU16_any _ h5.1).bind fun o6 h6 => ?_
  refine (pushU16_any _ h6.1).bind fun o7 h7 => ?_
  refine (addchar_any k h7.1).mono fun o8 h8 => ⟨h8.1, fun x hx => ?_, fun x hx => ?_⟩
  · rw [h8.2.2] at hx
    have := (List.append_inj' hx rfl).2
    simp only [List.cons.injEq, and_true] at this
    exact absurd this hk.1
  · rw [h8.2.2] at hx
    have := (List.append_inj' hx rfl).2
    simp only [List.cons.injEq, and_true] at this
    exact absurd this hk.2

theorem answerInAr_any {s : DwStr} (hs : Usable s) (hsz : Short s) (v : View) (junk : List UInt8) (T : List UInt8 → Prop) :
    Fine (answerInAr s v junk) (Kept T) := by
  unfold answerInAr
  split
  · exact .err
  · refine (oneRr_any hs hsz _ junk).bind fun t ht => ?_
    have hl := ht.lt; have hm := ht.lim
    have hc : Fine (create (t.len + 14) junk) Usable := by
      by_cases h : t.len + 14 < 134217728
      · obtain ⟨o, e, ho, -, -⟩ := create_usable (t.len + 14) junk (by omega) h
        exact .inr ⟨o, e, ho⟩
      · unfold create
        rw [if_pos (by omega)]
        exact .err
    refine hc.bind fun o ho => ?_
    refine (append_any ht ho).bind fun o1 h1 => ?_
    refine (pushAll_any _ h1.1).bind fun o2 h2 => ?_
    refine (addchar_any 0 h2.1).mono fun o8 h8 => ⟨h8.1, fun x hx => ?_, fun x hx => ?_⟩
    · rw [h8.2.2] at hx
      have := (List.append_inj' hx rfl).2
      simp at this
    · rw [h8.2.2] at hx
      have := (List.append_inj' hx rfl).2
      simp at this

end Dissect
end Dw
