import Verif.Deadwood.ServersProps
/-!
# C124: lists that are too long are refused as a whole
-/

namespace Dw
namespace Conf
open DwStr Spec Acl Ns

/-- What is known of the string being made, which may be full. -/
structure Held (s : DwStr) (m : Nat) (c : List UInt8) : Prop where
  live : Live s
  max : s.max = m
  contents : s.contents = c

theorem Made.held {s : DwStr} {m : Nat} {c : List UInt8} (h : Made s m c) : Held s m c :=
  ⟨h.usable.live, h.max, h.contents⟩

theorem Held.len {s : DwStr} {m : Nat} {c : List UInt8} (h : Held s m c) : s.len = c.length := by
  have hw := h.live.wf
  unfold WF at hw
  have := h.live.le
  rw [← h.contents, DwStr.contents, List.length_take]
  omega

/-- A step fails, or does what it should. -/
def Does (r : Res DwStr) (m : Nat) (c : List UInt8) : Prop := r = .err ∨ ∃ s', r = .ok s' ∧ Held s' m c

theorem does8 {s : DwStr} {m : Nat} {c : List UInt8} (h : Held s m c) (v : Nat) (hm : m ≤ 1000) :
    Does (s.putU8 v (-1)) m (c ++ [UInt8.ofNat v]) := by
  by_cases hs : s.sane = true
  · have hu := h.live.usable hs
    have hmax := h.max
    have hlt := hu.lt
    have hlen := h.len
    obtain ⟨s', h1, h2, h3, h4⟩ := putU8_end v hu (by rw [h.contents]; omega)
    have hl : s'.contents.length = c.length + 1 := by rw [h4, h.contents]; simp
    rw [DwStr.contents, List.length_take] at hl
    have hw := h2
    unfold WF at hw
    exact .inr ⟨s', h1, ⟨h2, by omega, by omega⟩, by omega, by rw [h4, h.contents]⟩
  · refine .inl ?_
    unfold putU8
    simp [hs]

theorem does16 {s : DwStr} {m : Nat} {c : List UInt8} (h : Held s m c) (v : Nat) (hm : m ≤ 1000) :
    Does (s.putU16 v (-1)) m (c ++ be16 v) := by
  by_cases hs : s.sane = true
  · have hu := h.live.usable hs
    have hmax := h.max
    have hlt := hu.lt
    have hlen := h.len
    by_cases hf : c.length + 2 < m
    · obtain ⟨s', e, h'⟩ := put16 ⟨hu, hmax, h.contents⟩ v hm hf
      exact .inr ⟨s', e, h'.held⟩
    · refine .inl ?_
      have e : (s.len : Int) + (-1) + 1 = s.len := by omega
      have eu : u32 (s.len : Int) = s.len := u32_nat _ (by omega)
      have hm' : s.len % 0x1000000 = s.len := Nat.mod_eq_of_lt (by omega)
      unfold putU16
      simp only [hs, Bool.not_true, Bool.false_eq_true, if_false,
        if_pos (show ((-1 : Int) < 0) by decide), e, eu, hm', Int.toNat_natCast]
      rw [if_neg (by omega), if_pos (by omega), if_pos (by omega)]
  · refine .inl ?_
    unfold putU16
    simp [hs]

theorem does_bytes {m : Nat} (hm : m ≤ 1000) : ∀ (a : List UInt8) {s : DwStr} {c : List UInt8}, Held s m c →
    Does (putBytes a s) m (c ++ a) := by
  intro a
  induction a with
  | nil => intro s c h; exact .inr ⟨s, rfl, by simpa using h⟩
  | cons x a ih =>
    intro s c h
    rcases does8 h x.toNat hm with e | ⟨s', e, h'⟩
    · exact .inl (by rw [putBytes, e]; rfl)
    · rcases ih h' with e' | ⟨s'', e', h''⟩
      · exact .inl (by rw [putBytes, e]; exact e')
      · exact .inr ⟨s'', by rw [putBytes, e]; exact e', by simpa using h''⟩

theorem does_record {m : Nat} (hm : m ≤ 1000) {a : List UInt8} (ha : a.length = 4 ∨ a.length = 16) {s : DwStr}
    {c : List UInt8} (h : Held s m c) : Does (addRecord s a) m (c ++ addrEntry a) := by
  have key : ∀ k : Nat, number a.length = .ok k → UInt8.ofNat k = (if a.length = 4 then 1 else 28) →
      Does (addRecord s a) m (c ++ addrEntry a) := by
    intro k hk hk'
    rcases does8 h k hm with e | ⟨s', e, h'⟩
    · exact .inl (by simp only [addRecord, hk, Res.ok_bind, e]; rfl)
    · rw [hk'] at h'
      rcases does_bytes hm a h' with e' | ⟨s'', e', h''⟩
      · exact .inl (by simp only [addRecord, hk, Res.ok_bind, e]; exact e')
      · exact .inr ⟨s'', by simp only [addRecord, hk, Res.ok_bind, e]; exact e', by simpa [addrEntry] using h''⟩
  rcases ha with ha | ha
  · exact key 1 (by rw [ha]; rfl) (by rw [ha]; rfl)
  · exact key 28 (by rw [ha]; rfl) (by rw [ha]; rfl)

theorem does_offsets {m : Nat} (hm : m ≤ 1000) : ∀ (os : List Nat) {s : DwStr} {c : List UInt8}, Held s m c →
    Does (putOffsets os s) m (c ++ os.flatMap be16) := by
  intro os
  induction os with
  | nil => intro s c h; exact .inr ⟨s, rfl, by simpa using h⟩
  | cons o os ih =>
    intro s c h
    rcases does16 h o hm with e | ⟨s', e, h'⟩
    · exact .inl (by rw [putOffsets, e]; rfl)
    · rcases ih h' with e' | ⟨s'', e', h''⟩
      · exact .inl (by rw [putOffsets, e]; exact e')
      · exact .inr ⟨s'', by rw [putOffsets, e]; exact e', by simpa using h''⟩

theorem does_loop {t : AddrText} (ht : t.Ok) (junk : List UInt8) {m : Nat} (hm : m ≤ 1000) {olds : List (List UInt8)} :
    ∀ (n : Nat) (items : List (Item t)) (s out : DwStr) (c : List UInt8) (os : List Nat), Usable s →
      s.contents.length + 2 < 134217728 → s.contents = lineText (olds ++ items.reverse.map Item.raw) →
      items.length ≤ n → (items.length = n ∨ Ends t olds) → Held out m c →
      addLoop t junk n s out os = .err ∨
      ∃ out', addLoop t junk n s out os = .ok (out', os ++ place c.length (items.map fun i => addrEntry i.addr)) ∧
        Held out' m (c ++ (items.map fun i => addrEntry i.addr).flatten) := by
  intro n
  induction n with
  | zero =>
    intro items s out c os _ _ _ hn _ ho
    have : items = [] := List.length_eq_zero_iff.1 (by omega)
    subst this
    exact .inr ⟨out, by simp [addLoop, place], by simpa using ho⟩
  | succ n ih =>
    intro items s out c os hs hlen hc hn hend ho
    cases items with
    | nil =>
      have he : Ends t olds := by
        rcases hend with h | h
        · simp at h
        · exact h
      obtain ⟨x, s', hp, hr⟩ := pop_end ht hs hlen junk he (by simpa using hc)
      refine .inr ⟨out, ?_, by simpa using ho⟩
      simp only [addLoop, hp, Res.ok_bind, Option.map_some, oneIp_none hr]
      simp [place]
    | cons i is =>
      obtain ⟨x, s', hp, hz, hu, hc', hle⟩ := pop_item ht hs hlen junk (l := olds ++ is.reverse.map Item.raw) i
        (by rw [hc]; simp)
      have hsz := read_size ht i.reads
      have hne : i.addr ≠ [] := by
        intro h; rw [h] at hsz; simp at hsz
      rcases does_record hm hsz ho with e1 | ⟨out1, e1, h1⟩
      · refine .inl ?_
        simp only [addLoop, hp, Res.ok_bind, Option.map_some, hz, oneIp_read i.reads, if_neg hne, e1]
        rfl
      · have hol : out.len % 65536 = c.length := by
          have := ho.len
          have := ho.live.le
          have := ho.max
          omega
        have hstep : addLoop t junk (n + 1) s out os = addLoop t junk n s' out1 (os ++ [c.length]) := by
          simp only [addLoop, hp, Res.ok_bind, Option.map_some, hz, oneIp_read i.reads, if_neg hne, e1, hol]
        rw [hstep]
        rcases ih is s' out1 (c ++ addrEntry i.addr) (os ++ [c.length]) hu (by omega) hc' (by simpa using hn)
          (by rcases hend with h | h
              · exact .inl (by simpa using h)
              · exact .inr h) h1 with e2 | ⟨out2, e2, h2⟩
        · exact .inl e2
        · exact .inr ⟨out2, by rw [e2]; simp [place], by simpa using h2⟩

/-- **C124.** However many of up to thirty addresses a line has and however long their list is: Deadwood refuses the
line, or keeps exactly its addresses; no list is cut to fit, and nothing undefined happens.  (The line may also have
items in front that are not reached, as in `line_exact`.) -/
theorem all_or_refused {t : AddrText} (ht : t.Ok) {line : DwStr} (hl : Usable line) (hlen : line.contents.length < 100000000)
    {bailiwick : Option DwStr} {zone : List UInt8} (hz : ForZone bailiwick zone) (olds : List (List UInt8))
    (items : List (Item t)) (hc : line.contents = lineText (olds ++ items.map Item.raw)) (h30 : items.length ≤ 30)
    (hend : items.length = 30 ∨ Ends t olds) (up : Bool) (junk : List UInt8) :
    accepted (nsConvert t line up bailiwick junk) = false ∧ nsConvert t line up bailiwick junk = .err ∨
    ∃ v, nsConvert t line up bailiwick junk = .ok v ∧
      v.contents = serverList zone (items.map (·.addr)).reverse (kindOf up) := by
  have key : nsConvert t line up bailiwick junk = .err ∨ ∃ v, nsConvert t line up bailiwick junk = .ok v ∧
      v.contents = serverList zone (items.map (·.addr)).reverse (kindOf up) := by
    obtain ⟨mangle, e0, hm, -, hmc⟩ := copy_exact hl junk
    obtain ⟨out, m, e1, h1, hroom, hmax, hzl⟩ := init_made hz junk
    have hpl := Dissect.place_length (items.reverse.map fun i => addrEntry i.addr) zone.length
    rw [List.length_map, List.length_reverse] at hpl
    simp only [nsConvert, e0, Res.ok_bind, convertMangle, e1]
    rcases does_loop ht junk hmax (olds := olds) 30 items.reverse mangle out zone [] hm (by rw [hmc]; omega)
      (by rw [hmc, hc]; simp) (by simpa using h30) (by simpa using hend) h1.held with e2 | ⟨out2, e2, h2⟩
    · rw [e2]; exact .inl rfl
    rw [List.nil_append] at e2
    simp only [e2, Res.ok_bind, hpl]
    rcases does_offsets hmax (place zone.length (items.reverse.map fun i => addrEntry i.addr)) h2 with e3 | ⟨out3, e3, h3⟩
    · rw [e3]; exact .inl rfl
    simp only [e3, Res.ok_bind]
    rcases does8 h3 items.length hmax with e4 | ⟨out4, e4, h4⟩
    · rw [e4]; exact .inl rfl
    simp only [e4, Res.ok_bind]
    rcases does8 h4 (if up then 22 else 16) hmax with e5 | ⟨out5, e5, h5⟩
    · rw [e5]; exact .inl rfl
    refine .inr ⟨out5, e5, ?_⟩
    rw [h5.contents]
    have hk : UInt8.ofNat (if up then 22 else 16) = kindOf up := by cases up <;> rfl
    have hmm : (items.map (·.addr)).reverse.map addrEntry = items.reverse.map fun i => addrEntry i.addr := by
      rw [← List.map_reverse, List.map_map]; rfl
    simp only [serverList, hmm, hk, List.length_reverse, List.length_map, List.append_assoc, List.cons_append, List.nil_append]
  rcases key with e | h
  · exact .inl ⟨by rw [e]; rfl, e⟩
  · exact .inr h

/-- Both happen: fourteen times `::1` is refused, thirteen times is kept. -/
def exMany (n : Nat) : DwStr := ofBytes (lineText (List.replicate n [58, 58, 49]))

example : nsConvert exText (exMany 14) true none [] = .err ∧ (nsConvert exText (exMany 13) true none []).bind (fun v => .ok v.len) = .ok 250 := by
  decide +kernel

/-! ### Any line -/

theorem last_comma : ∀ l : List UInt8, (44 : UInt8) ∉ l ∨ ∃ pre post, l = pre ++ 44 :: post ∧ (44 : UInt8) ∉ post
  | [] => .inl (by simp)
  | x :: l => by
    rcases last_comma l with h | ⟨pre, post, h1, h2⟩
    · by_cases hx : x = 44
      · exact .inr ⟨[], l, by rw [hx]; rfl, h⟩
      · exact .inl (by simp only [List.mem_cons, not_or]; exact ⟨fun e => hx e.symm, h⟩)
    · exact .inr ⟨x :: pre, post, by rw [h1]; rfl, h2⟩

theorem pop_any {s : DwStr} (h : Usable s) (hlen : s.contents.length + 2 < 134217728) (junk : List UInt8) :
    ∃ c s', popLastItem s junk = .ok (some c, s') ∧ Usable s' ∧ s'.contents.length ≤ s.contents.length := by
  have key : ∀ {out s' : DwStr}, qspop s junk = .ok (out, s') → Usable out → Usable s' →
      out.contents.length ≤ s.contents.length → s'.contents.length ≤ s.contents.length →
      ∃ c s', popLastItem s junk = .ok (some c, s') ∧ Usable s' ∧ s'.contents.length ≤ s.contents.length := by
    intro out s' hq hu hu' hle hr
    obtain ⟨z, hz, hzu, -⟩ := zapLws_exact hu junk (by omega)
    exact ⟨cstr z.contents, s', by simp [popLastItem, hq, hz, hzu.sane], hu', hr⟩
  rcases last_comma s.contents with h44 | ⟨pre, post, hc, h44⟩
  · obtain ⟨out, s', hq, hu, hu', -, ho, hs'⟩ := (qspop_exact h junk).1 h44
    exact key hq hu hu' (by rw [ho]) (by rw [hs']; simp)
  · obtain ⟨out, s', hq, hu, hu', -, ho, hs'⟩ := (qspop_exact h junk).2 _ _ hc h44
    exact key hq hu hu' (by rw [ho, hc]; simp; omega) (by rw [hs', hc]; simp)

theorem loop_any {t : AddrText} (ht : t.Ok) (junk : List UInt8) {m : Nat} (hm : m ≤ 1000) :
    ∀ (n : Nat) (s out : DwStr) (c : List UInt8) (os : List Nat), Usable s → s.contents.length + 2 < 134217728 →
      Held out m c → addLoop t junk n s out os = .err ∨ ∃ out' os' c', addLoop t junk n s out os = .ok (out', os') ∧ Held out' m c' := by
  intro n
  induction n with
  | zero => intro s out c os _ _ ho; exact .inr ⟨out, os, c, rfl, ho⟩
  | succ n ih =>
    intro s out c os hs hlen ho
    obtain ⟨x, s', hp, hu, hle⟩ := pop_any hs hlen junk
    cases hr : t.read (zapBlank 512 x) with
    | none =>
      refine .inr ⟨out, os, c, ?_, ho⟩
      simp only [addLoop, hp, Res.ok_bind, Option.map_some, oneIp_none hr]
      simp
    | some a =>
      have hsz := read_size ht hr
      have hne : a ≠ [] := by
        intro h; rw [h] at hsz; simp at hsz
      rcases does_record hm hsz ho with e1 | ⟨out1, e1, h1⟩
      · refine .inl ?_
        simp only [addLoop, hp, Res.ok_bind, Option.map_some, oneIp_read hr, if_neg hne, e1]
        rfl
      · simp only [addLoop, hp, Res.ok_bind, Option.map_some, oneIp_read hr, if_neg hne, e1]
        exact ih s' out1 _ _ hu (by omega) h1

/-- **C124.** Whatever bytes a line has, reading it does nothing undefined: it is refused, or a list is made that is not
longer than its buffer. -/
theorem any_line_safe {t : AddrText} (ht : t.Ok) {line : DwStr} (hl : Usable line) (hlen : line.contents.length < 100000000)
    {bailiwick : Option DwStr} {zone : List UInt8} (hz : ForZone bailiwick zone) (up : Bool) (junk : List UInt8) :
    nsConvert t line up bailiwick junk = .err ∨ ∃ v, nsConvert t line up bailiwick junk = .ok v ∧ Live v := by
  obtain ⟨mangle, e0, hm, -, hmc⟩ := copy_exact hl junk
  obtain ⟨out, m, e1, h1, hroom, hmax, hzl⟩ := init_made hz junk
  simp only [nsConvert, e0, Res.ok_bind, convertMangle, e1]
  rcases loop_any ht junk hmax 30 mangle out zone [] hm (by rw [hmc]; omega) h1.held with e2 | ⟨out2, os, c, e2, h2⟩
  · rw [e2]; exact .inl rfl
  simp only [e2, Res.ok_bind]
  rcases does_offsets hmax os h2 with e3 | ⟨out3, e3, h3⟩
  · rw [e3]; exact .inl rfl
  simp only [e3, Res.ok_bind]
  rcases does8 h3 os.length hmax with e4 | ⟨out4, e4, h4⟩
  · rw [e4]; exact .inl rfl
  simp only [e4, Res.ok_bind]
  rcases does8 h4 (if up then 22 else 16) hmax with e5 | ⟨out5, e5, h5⟩
  · rw [e5]; exact .inl rfl
  exact .inr ⟨out5, e5, h5.live⟩

/-- A line of commas, blanks and a null. -/
example : (nsConvert exText (ofBytes [44, 32, 0, 44, 9]) true none []).bind (fun v => .ok v.contents) = .ok [0, 0, 22] := by
  decide +kernel

end Conf
end Dw
