import Verif.Deadwood.DecompPacketProps
/-!
# Compressing whole answers: lemmas
-/

namespace Dw
namespace DwStr
open Spec

theorem walk_mono {p p' q : Mem} {plen plen' qlen : Nat} (h : MemLe p p') (hl : plen ≤ plen')
    {n : Nat} {b b' : Bool} {i i' : Nat} {ls : List (List UInt8)} (w : Walk p q plen qlen n b i ls b' i') :
    Walk p' q plen' qlen n b i ls b' i' := by
  have hsel : ∀ b, MemLe (sel p q b) (sel p' q b) := by
    intro b; cases b
    · exact h
    · intro i v hv; exact hv
  induction w with
  | here => exact .here
  | @label n b i l ls b' i' g _ ih => exact .label (LabelAt.mono (hsel b) g) ih
  | pointer g1 g2 g3 g4 _ ih => exact .pointer (h _ _ g1) g2 (h _ _ g3) (ptrTarget_mono hl g4) ih

/-- The name at a place is `ls`; it takes `n` steps to read, and its pointers lead back. -/
def BackAt (p q : Mem) (plen qlen n : Nat) (b : Bool) (i : Nat) (ls : List (List UInt8)) : Prop :=
  Spec.NameAt p q plen qlen n b i ls ∧ BackHop p q plen qlen b i ls

/-- `Spec.NamesAt` with pointers that lead back. -/
inductive NamesBk (p q : Mem) (plen qlen : Nat) : Nat → List (List (List UInt8)) → Nat → Prop
  | nil {i} : NamesBk p q plen qlen i [] i
  | cons {n i e k ls rest} : n < 200 → BackAt p q plen qlen n false i ls → EndsAt p i e →
      NamesBk p q plen qlen e rest k → NamesBk p q plen qlen i (ls :: rest) k

/-- `Spec.RecAt` with pointers that lead back. -/
structure RecBk (p q : Mem) (plen qlen : Nat) (i : Nat) (r : Rec) (e : Nat) : Prop where
  at_ : ∃ n a k, n < 200 ∧ BackAt p q plen qlen n false i r.name ∧ EndsAt p i a ∧
    BytesAt p a (be16 r.type ++ r.cls ++ be32 r.ttl ++ be16 (e - (a + 10))) ∧ e - (a + 10) < 65536 ∧
    BytesAt p (a + 10) r.lead ∧ NamesBk p q plen qlen (a + 10 + r.lead.length) r.names k ∧
    BytesAt p k r.tail ∧ e = k + r.tail.length

/-- `Spec.RecsAt` with pointers that lead back. -/
inductive RecsBk (p q : Mem) (plen qlen : Nat) : Nat → List Rec → Nat → Prop
  | nil {i} : RecsBk p q plen qlen i [] i
  | cons {i e k r rs} : RecBk p q plen qlen i r e → RecsBk p q plen qlen e rs k →
      RecsBk p q plen qlen i (r :: rs) k

theorem NamesBk.namesAt {p q : Mem} {plen qlen i k : Nat} {ns : List (List (List UInt8))}
    (h : NamesBk p q plen qlen i ns k) : NamesAt p q plen qlen i ns k := by
  induction h with
  | nil => exact .nil
  | cons h1 h2 h3 _ ih => exact .cons h1 h2.1 h3 ih

theorem RecsBk.recsAt {p q : Mem} {plen qlen i e : Nat} {rs : List Rec}
    (h : RecsBk p q plen qlen i rs e) : RecsAt p q plen qlen i rs e := by
  induction h with
  | nil => exact .nil
  | cons h1 _ ih =>
    obtain ⟨n, a, k, g1, g2, g3, g4, g5, g6, g7, g8, g9⟩ := h1.at_
    exact .cons ⟨n, a, k, g1, g2.1, g3, g4, g5, g6, g7.namesAt, g8, g9⟩ ih

theorem nameAt_mono {p p' q : Mem} {plen plen' qlen : Nat} (h : MemLe p p') (hl : plen ≤ plen')
    {n : Nat} {b : Bool} {i : Nat} {ls : List (List UInt8)} (w : BackAt p q plen qlen n b i ls) :
    BackAt p' q plen' qlen n b i ls := by
  obtain ⟨⟨b', i', w, z⟩, hb⟩ := w
  refine ⟨⟨b', i', walk_mono h hl w, ?_⟩, hb.mono h hl⟩
  cases b'
  · exact h _ _ z
  · exact z

theorem endsAt_mono {p p' : Mem} (h : MemLe p p') {i e : Nat} (g : EndsAt p i e) : EndsAt p' i e := by
  induction g with
  | root g => exact .root (h _ _ g)
  | pointer g g2 => exact .pointer (h _ _ g) g2
  | label g _ ih => exact .label (LabelAt.mono h g) ih

theorem bytesAt_mono {p p' : Mem} (h : MemLe p p') {i : Nat} {l : List UInt8} (g : BytesAt p i l) : BytesAt p' i l :=
  fun j hj => h _ _ (g j hj)

theorem namesAt_mono {p p' q : Mem} {plen plen' qlen : Nat} (h : MemLe p p') (hl : plen ≤ plen')
    {i k : Nat} {ns : List (List (List UInt8))} (g : NamesBk p q plen qlen i ns k) :
    NamesBk p' q plen' qlen i ns k := by
  induction g with
  | nil => exact .nil
  | cons h1 h2 h3 _ ih => exact .cons h1 (nameAt_mono h hl h2) (endsAt_mono h h3) ih

theorem recAt_mono {p p' q : Mem} {plen plen' qlen : Nat} (h : MemLe p p') (hl : plen ≤ plen')
    {i e : Nat} {r : Rec} (g : RecBk p q plen qlen i r e) : RecBk p' q plen' qlen i r e := by
  obtain ⟨n, a, k, h1, h2, h3, h4, h5, h6, h7, h8, h9⟩ := g.at_
  exact ⟨n, a, k, h1, nameAt_mono h hl h2, endsAt_mono h h3, bytesAt_mono h h4, h5, bytesAt_mono h h6,
    namesAt_mono h hl h7, bytesAt_mono h h8, h9⟩

theorem recsAt_mono {p p' q : Mem} {plen plen' qlen : Nat} (h : MemLe p p') (hl : plen ≤ plen')
    {i e : Nat} {rs : List Rec} (g : RecsBk p q plen qlen i rs e) : RecsBk p' q plen' qlen i rs e := by
  induction g with
  | nil => exact .nil
  | cons h1 _ ih => exact .cons (recAt_mono h hl h1) ih

theorem recsAt_snoc {p q : Mem} {plen qlen : Nat} {i e k : Nat} {rs : List Rec} {r : Rec}
    (g : RecsBk p q plen qlen i rs e) (h : RecBk p q plen qlen e r k) : RecsBk p q plen qlen i (rs ++ [r]) k := by
  induction g with
  | nil => exact .cons h .nil
  | cons h1 _ ih => exact .cons h1 (ih h)

/-! ### Names written in full -/

theorem plainAt_end {m : Mem} {i : Nat} {ls : List (List UInt8)} (h : PlainAt m i ls) :
    EndsAt m i (i + (encName ls).length) := by
  induction h with
  | root h => exact .root h
  | @label i l ls hl _ ih =>
    refine .label hl ?_
    rw [encName_cons]
    have : i + (UInt8.ofNat l.length :: l ++ encName ls).length = i + (l.length + 1) + (encName ls).length := by
      simp; omega
    rw [this]; exact ih

theorem plainAt_name {p q : Mem} {plen qlen : Nat} {i : Nat} {ls : List (List UInt8)} (h : PlainAt p i ls) :
    BackAt p q plen qlen ls.length false i ls := by
  refine ⟨?_, PlainAt.backHop (b := false) h⟩
  induction h with
  | root h => exact ⟨_, _, .here, h⟩
  | label hl _ ih =>
    obtain ⟨b, i', w, z⟩ := ih
    exact ⟨b, i', .label hl w, z⟩

theorem plain_names {p q : Mem} {plen qlen : Nat} :
    ∀ {i : Nat} {ns : List (List (List UInt8))}, (∀ n ∈ ns, LabelsOk n ∧ n.length < 100) →
    BytesAt p i (ns.flatMap encName) → NamesBk p q plen qlen i ns (i + (ns.flatMap encName).length) := by
  intro i ns
  induction ns generalizing i with
  | nil => intro _ _; simpa using NamesBk.nil
  | cons n ns ih =>
    intro hok hb
    rw [List.flatMap_cons] at hb ⊢
    have hp : PlainAt p i n := PlainAt.of_encName (hok n (by simp)).1 (bytesAt_left hb)
    have := ih (fun x hx => hok x (by simp [hx])) (bytesAt_right hb)
    rw [List.length_append, ← Nat.add_assoc]
    exact .cons (by have := (hok n (by simp)).2; omega) (plainAt_name hp) (plainAt_end hp) this

/-! ### The part of the output that stays -/

/-- The output without the two bytes at `h`, which are overwritten later. -/
def hole (h : Nat) (c : DwStr) : Mem := fun i => if i = h ∨ i = h + 1 then none else c.mem i

theorem hole_le (h : Nat) (c : DwStr) : MemLe (hole h c) c.mem := by
  intro i v hv
  simp only [hole] at hv
  split at hv
  · cases hv
  · exact hv

theorem hole_grow {h : Nat} {c c' : DwStr} {x : List UInt8} (e : c'.contents = c.contents ++ x) :
    MemLe (hole h c) (hole h c') := by
  intro i v hv
  simp only [hole] at hv ⊢
  split at hv
  · cases hv
  · rename_i g; rw [if_neg g]; exact mem_append e _ _ hv

theorem hole_ext {h : Nat} {c c' : DwStr} {x : List UInt8} (e : c'.contents = c.contents ++ x) (hh : h + 2 ≤ c.len) :
    MemLe (ext (hole h c) c.len c'.mem) (hole h c') := by
  intro i v hv
  simp only [ext] at hv
  split at hv
  · exact hole_grow e _ _ hv
  · rename_i g
    simp only [hole]
    rw [if_neg (by omega)]; exact hv

/-- New bytes of the output are outside the hole. -/
theorem hole_new {h : Nat} {c c' : DwStr} (hc : Usable c) {x : List UInt8} (e : c'.contents = c.contents ++ x)
    (hh : h + 2 ≤ c.len) : BytesAt (hole h c') c.len x := by
  intro j hj
  simp only [hole]
  rw [if_neg (by omega)]
  exact mem_new hc e hj

theorem mem_new_bytes {c c' : DwStr} (hc : Usable c) {x : List UInt8} (e : c'.contents = c.contents ++ x) :
    BytesAt c'.mem c.len x := fun _ hj => mem_new hc e hj

/-- The stack, for what stays. -/
def Stk (M : Mem) (n : Nat) (q s : DwStr) : Prop :=
  ∃ es, s.contents = enc16 es ∧ ∀ e ∈ es, ∃ ls, GoodE M n q e ls

theorem Stk.mono {M M' : Mem} (h : MemLe M M') {n n' : Nat} (hn : n ≤ n') {q s : DwStr} (g : Stk M n q s) :
    Stk M' n' q s := by
  obtain ⟨es, h1, h2⟩ := g
  exact ⟨es, h1, fun e he => by obtain ⟨ls, g⟩ := h2 e he; exact ⟨ls, g.mono h hn⟩⟩

/-- Names the compressor treats rightly. -/
def NameOk (n : List (List UInt8)) : Prop := LabelsOk n ∧ n.length < 100 ∧ NoRepeat n

/-- One name, with `M` the part of the output that stays. -/
theorem compressName_mem {u q c s : DwStr} (hu : Usable u) (hq : Usable q) (hc : Usable c) (hs : Usable s)
    {M : Mem} (hM : MemLe M c.mem) (hst : Stk M c.len q s) (hbig : c.max + q.len + 14 ≤ 16384)
    {uo : Nat} {us : List (List UInt8)} (hok : NameOk us) (hb : BytesAt u.mem uo (encName us))
    {junk : List UInt8} {r : Nat} {c' s' : DwStr}
    (hres : compressName u q junk 300 uo c s = .ok (r, c', s')) (hroom : c'.len + 64 < c.max) :
    r = uo + (encName us).length ∧ Usable c' ∧ Usable s' ∧ c'.max = c.max ∧ s'.max = s.max ∧
    (∃ x, c'.contents = c.contents ++ x) ∧
    (∃ n ls, n < 200 ∧ SameName us ls ∧
      BackAt (ext M c.len c'.mem) q.mem c'.len q.len n false c.len ls) ∧
    EndsAt (ext M c.len c'.mem) c.len c'.len ∧ Stk (ext M c.len c'.mem) c'.len q s' := by
  obtain ⟨es, h1, h2⟩ := hst
  obtain ⟨k1, k2, k3, k4, k5, ⟨x, k6, -, -⟩, ⟨ls, k7, k8⟩, k9, es', k10, k11⟩ :=
    compressName_spec hu hq junk us 300 uo c s M [] es hc hs hM (by have := hok.2.1; omega)
      (by have := hok.2.1; omega) (PlainAt.of_encName hok.1 hb) (by simpa using hok.2.2) hbig h1
      (fun e he => Or.inl (h2 e he)) hres hroom
  obtain ⟨n, hn, hle, -⟩ := k8.oneHop.steps
  have hll : ls.length = us.length := by simpa using (congrArg List.length k7).symm
  exact ⟨k1, k2, k3, k4, k5, ⟨x, k6⟩, ⟨n, ls, by have := hok.2.1; omega, k7, hn, k8⟩, k9, es', k10, k11⟩

/-- The names in the data of a record. -/
theorem compressDlabels_names {u q : DwStr} (hu : Usable u) (hq : Usable q) (junk : List UInt8) (h : Nat) :
    ∀ (ns : List (List (List UInt8))) {uo : Nat} {c s : DwStr}, Usable c → Usable s → h + 2 ≤ c.len →
    Stk (hole h c) c.len q s → c.max + q.len + 14 ≤ 16384 → (∀ n ∈ ns, NameOk n) →
    BytesAt u.mem uo (ns.flatMap encName) →
    ∀ {r : Nat} {c' s' : DwStr}, compressDlabels u q junk ns.length uo c s = .ok (r, c', s') →
      c'.len + 64 < c.max →
      r = uo + (ns.flatMap encName).length ∧ Usable c' ∧ Usable s' ∧ c'.max = c.max ∧ s'.max = s.max ∧
      (∃ x, c'.contents = c.contents ++ x) ∧ Stk (hole h c') c'.len q s' ∧
      ∃ ns', SameNames ns ns' ∧ NamesBk (hole h c') q.mem c'.len q.len c.len ns' c'.len := by
  intro ns
  induction ns with
  | nil =>
    intro uo c s hc hs _ hst _ _ _ r c' s' hres _
    rw [List.length_nil, compressDlabels] at hres
    split at hres
    · cases hres
    · cases hres
      exact ⟨by simp, hc, hs, rfl, rfl, ⟨[], by simp⟩, hst, [], trivial, .nil⟩
  | cons n ns ih =>
    intro uo c s hc hs hh hst hbig hok hb r c' s' hres hroom
    rw [List.flatMap_cons] at hb
    rw [List.length_cons, compressDlabels] at hres
    split at hres
    · cases hres
    rcases compressName_safe hu hq junk 300 uo hc hs with e | ⟨r1, c1, s1, e, g1, g2⟩
    · rw [e] at hres; cases hres
    rw [e, Res.ok_bind] at hres
    simp only at hres
    have hlen : c1.len ≤ c'.len := by
      rcases compressDlabels_safe hu hq junk ns.length r1 g1.1 g2.1 with e' | ⟨_, _, _, e', gg, -⟩
      · rw [e'] at hres; cases hres
      · rw [e'] at hres; cases hres; exact gg.len g1.1
    obtain ⟨k1, k2, k3, k4, k5, ⟨x, k6⟩, ⟨m, ls, k7, k8, k9⟩, k10, k11⟩ :=
      compressName_mem hu hq hc hs (hole_le h c) hst hbig (hok n (by simp)) (bytesAt_left hb) e (by omega)
    have hle1 := hole_ext (h := h) k6 hh
    have hcl : c.len ≤ c1.len := g1.len hc
    subst k1
    obtain ⟨j1, j2, j3, j4, j5, ⟨y, j6⟩, j7, ns', j8, j9⟩ :=
      ih k2 k3 (by omega) (k11.mono hle1 (Nat.le_refl _)) (by rw [k4]; exact hbig)
        (fun x hx => hok x (by simp [hx])) (bytesAt_right hb) hres (by rw [k4]; exact hroom)
    have hle2 := hole_grow (h := h) j6
    have hle3 : MemLe (ext (hole h c) c.len c1.mem) (hole h c') := fun i v hv => hle2 _ _ (hle1 _ _ hv)
    refine ⟨?_, j2, j3, by rw [j4, k4], by rw [j5, k5], ⟨x ++ y, by rw [j6, k6]; simp⟩, j7,
      ls :: ns', ⟨k8, j8⟩, .cons k7 (nameAt_mono hle3 hlen k9) (endsAt_mono hle3 k10) j9⟩
    rw [j1, List.flatMap_cons, List.length_append]; omega

/-- Copying `l`, which is at `off`, to the end of the output (an error if there is no room). -/
theorem copy_piece {u c : DwStr} (hu : Usable u) (hc : Usable c) {off : Nat} {l : List UInt8}
    (hb : BytesAt u.mem off l) (hle : off + l.length ≤ u.contents.length) (hl : l.length < 65536)
    (junk : List UInt8) : ∃ tmp, u.substr off l.length 1 junk = .ok tmp ∧ Usable tmp ∧ tmp.contents = l := by
  obtain ⟨t, h1, h2, -, h4⟩ := substr_in hu off l.length 1 junk hle (by omega)
  exact ⟨t, h1, h2, by rw [h4, bytesAt_take hb]⟩

theorem append_inv {t c c' : DwStr} (ht : Usable t) (hc : Usable c) (h : append t c = .ok c') :
    Usable c' ∧ c'.max = c.max ∧ c'.contents = c.contents ++ t.contents := by
  by_cases hf : c.contents.length + t.contents.length < c.max
  · obtain ⟨x, e1, e2, e3, e4⟩ := (append_exact ht hc).2 hf
    rw [e1] at h; cases h
    exact ⟨e2, e3, e4⟩
  · rw [(append_exact ht hc).1 (by omega)] at h; cases h

theorem bytesAt_nil (m : Mem) (i : Nat) : BytesAt m i [] := fun j hj => absurd hj (by simp)

/-- The data of the record `r` were written. -/
def RdOut (h : Nat) (q c s : DwStr) (r : Rec) (c' s' : DwStr) : Prop :=
    Usable c' ∧ Usable s' ∧ c'.max = c.max ∧ s'.max = s.max ∧ (∃ x, c'.contents = c.contents ++ x) ∧
    Stk (hole h c') c'.len q s' ∧ ∃ ns k, SameNames r.names ns ∧ BytesAt (hole h c') c.len r.lead ∧
      NamesBk (hole h c') q.mem c'.len q.len (c.len + r.lead.length) ns k ∧
      BytesAt (hole h c') k r.tail ∧ c'.len = k + r.tail.length

theorem compRddata_exact {u q c s : DwStr} (hu : Usable u) (hq : Usable q) (hc : Usable c) (hs : Usable s)
    (junk : List UInt8) {h : Nat} (hh : h + 2 ≤ c.len) (hst : Stk (hole h c) c.len q s)
    (hbig : c.max + q.len + 14 ≤ 16384) {r : Rec} (hok : ∀ n ∈ r.names, NameOk n) {off : Nat}
    (hb : BytesAt u.mem off r.rdata) (hin : off + r.rdata.length ≤ u.contents.length)
    (hsz : r.rdata.length < 65536) {e : Nat} {c' s' : DwStr}
    (hres : compRddata r.lead.length r.names.length r.tail.length u off c s q junk = .ok (e, c', s'))
    (hroom : c'.len + 64 < c.max) :
    RdOut h q c s r c' s' := by
  have hrl : r.rdata.length = r.lead.length + (r.names.flatMap encName).length + r.tail.length := by
    simp [Rec.rdata, -List.length_flatMap]; omega
  have hb1 : BytesAt u.mem off r.lead := bytesAt_left (bytesAt_left hb)
  have hb2 : BytesAt u.mem (off + r.lead.length) (r.names.flatMap encName) := bytesAt_right (bytesAt_left hb)
  have hb3 : BytesAt u.mem (off + r.lead.length + (r.names.flatMap encName).length) r.tail := by
    have := bytesAt_right hb
    rwa [List.length_append, ← Nat.add_assoc] at this
  have hul := hu.clen
  rw [compRddata] at hres
  simp only [hu.sane, hc.sane, hs.sane, Bool.not_true, Bool.or_self,
    decide_eq_false (show ¬ off > u.len by omega), Bool.false_eq_true, if_false] at hres
  have main : ∀ c1 : DwStr, Usable c1 → c1.max = c.max → c1.contents = c.contents ++ r.lead →
      (do
        let (offset, c, s) ← compressDlabels u q junk r.names.length (off + r.lead.length) c1 s
        if r.tail.length > 0 then do
          let tmp ← u.substr offset r.tail.length 1 junk
          let c ← append tmp c
          .ok (offset + r.tail.length, c, s)
        else .ok (offset, c, s)) = Res.ok (e, c', s') →
      RdOut h q c s r c' s' := by
    intro c1 u1 m1 e1 hres
    have hcl := hc.clen
    have hc1l : c1.len = c.len + r.lead.length := by rw [← u1.clen, e1]; simp [hcl]
    rcases compressDlabels_safe hu hq junk r.names.length (off + r.lead.length) u1 hs with e' | ⟨r2, c2, s2, e', g1, g2, hr2u⟩
    · rw [e'] at hres; cases hres
    rw [e'] at hres
    simp only [Res.ok_bind] at hres
    -- the end of the record
    have fin : Usable c2 → Usable s2 → c2.max = c1.max → c2.len ≤ c'.len →
        (r2 = off + r.lead.length + (r.names.flatMap encName).length →
          Usable c' ∧ c'.max = c2.max ∧ s' = s2 ∧ c'.contents = c2.contents ++ r.tail) →
        RdOut h q c s r c' s' := by
      intro v2 w2 m2 hle2 hfin
      obtain ⟨j1, j2, j3, j4, j5, ⟨y, j6⟩, j7, ns', j8, j9⟩ :=
        compressDlabels_names hu hq junk h r.names u1 hs (by omega)
          (hst.mono (hole_grow e1) (by omega)) (by rw [m1]; exact hbig) hok hb2 e' (by rw [m1]; omega)
      obtain ⟨f1, f2, f3, f4⟩ := hfin j1
      subst f3
      have hle := hole_grow (h := h) f4
      have hc'l : c'.len = c2.len + r.tail.length := by rw [← f1.clen, f4]; simp [v2.clen]
      have hc2l : c1.len ≤ c2.len := g1.len u1
      exact ⟨f1, w2, by rw [f2, j4, m1], j5, ⟨r.lead ++ y ++ r.tail, by rw [f4, j6, e1]; simp⟩,
        j7.mono hle (by omega), ns', c2.len, j8,
        bytesAt_mono (hole_grow (h := h) (show c'.contents = c1.contents ++ (y ++ r.tail) by rw [f4, j6]; simp))
          (hole_new hc e1 hh),
        by rw [← hc1l]; exact namesAt_mono hle (by omega) j9, hole_new v2 f4 (by omega), hc'l⟩
    by_cases h0 : r.tail.length > 0
    · rw [if_pos h0] at hres
      have hulim := hu.lim
      have hult := hu.lt
      rcases substr_safe hu r2 r.tail.length junk (by omega) (by omega) with e3 | ⟨tmp, t1, t2⟩
      · rw [e3] at hres; cases hres
      rw [t1, Res.ok_bind] at hres
      rcases append_safe t2 g1.1 with e3 | ⟨c3, e3, u3, m3, x3, hx3⟩
      · rw [e3] at hres; cases hres
      rw [e3] at hres
      simp only [Res.ok_bind, Res.ok.injEq, Prod.mk.injEq] at hres
      obtain ⟨-, rfl, rfl⟩ := hres
      refine fin g1.1 g2.1 g1.2.1 (Grow.len g1.1 ⟨u3, m3, x3, hx3⟩) (fun hr2 => ?_)
      subst hr2
      obtain ⟨tmp', t3, t4, t5⟩ := copy_piece hu hc hb3 (by omega) (by omega) junk
      have : tmp' = tmp := by
        have t3' := t3
        rw [t1] at t3'
        injection t3' with t3'
        exact t3'.symm
      subst this
      obtain ⟨f1, f2, f3⟩ := append_inv t4 g1.1 e3
      exact ⟨f1, f2, rfl, by rw [f3, t5]⟩
    · rw [if_neg h0] at hres
      simp only [Res.ok.injEq, Prod.mk.injEq] at hres
      obtain ⟨-, rfl, rfl⟩ := hres
      have h00 : r.tail = [] := List.eq_nil_of_length_eq_zero (by omega)
      exact fin g1.1 g2.1 g1.2.1 (Nat.le_refl _) (fun _ => ⟨g1.1, rfl, rfl, by simp [h00]⟩)
  by_cases h0 : r.lead.length > 0
  · rw [if_pos h0] at hres
    obtain ⟨tmp, t1, t2, t3⟩ := copy_piece hu hc hb1 (by omega) (by omega) junk
    rw [t1, Res.ok_bind] at hres
    rcases append_safe t2.live hc with e3 | ⟨c3, e3, -⟩
    · rw [e3] at hres; cases hres
    obtain ⟨f1, f2, f3⟩ := append_inv t2 hc e3
    rw [e3, Res.ok_bind] at hres
    exact main c3 f1 f2 (by rw [f3, t3]) hres
  · rw [if_neg h0, Res.ok_bind] at hres
    have h00 : r.lead = [] := List.eq_nil_of_length_eq_zero (by omega)
    exact main c hc rfl (by simp [h00]) hres

theorem sameNames_refl : ∀ ns : List (List (List UInt8)), SameNames ns ns := by
  intro ns
  induction ns with
  | nil => trivial
  | cons n ns ih => exact ⟨rfl, ih⟩

theorem rdLayout_small {t a b c : Nat} (h : rdLayout t = some (a, b, c)) : a ≤ 100 ∧ c ≤ 100 := by
  unfold rdLayout at h
  split at h <;> simp at h <;> omega

/-- A record the compressor treats rightly. -/
structure RecOk (r : Rec) : Prop where
  ok : r.Ok
  name : NameOk r.name
  names : ∀ n ∈ r.names, NameOk n

theorem compressRr_exact {u q c s : DwStr} (hu : Usable u) (hq : Usable q) (hc : Usable c) (hs : Usable s)
    (junk : List UInt8) (hst : Stk c.mem c.len q s) (hbig : c.max + q.len + 14 ≤ 16384) {r : Rec} (hr : RecOk r)
    {pos : Nat} (hb : BytesAt u.mem pos r.toRR.enc) {c' s' : DwStr}
    (hres : compressRr (pos, pos + (encName r.name).length) u c q s junk = .ok (c', s'))
    (hroom : c'.len + 64 < c.max) :
    Usable c' ∧ Usable s' ∧ c'.max = c.max ∧ MemLe c.mem c'.mem ∧ c.len ≤ c'.len ∧ Stk c'.mem c'.len q s' ∧
    ∃ r', SameRec r r' ∧ RecBk c'.mem q.mem c'.len q.len c.len r' c'.len := by
  have hul := hu.clen
  have hulim := hu.lim
  have hult := hu.lt
  have henl : r.toRR.enc.length = (encName r.name).length + 10 + r.rdata.length :=
    RR.enc_length (Rec.toRR_ok hr.ok)
  have hub := bytesAt_le hb (by omega)
  rw [henl] at hub
  -- the pieces of the record
  have henc : r.toRR.enc = encName r.name ++ (be16 r.type ++ r.cls ++ be32 r.ttl ++ be16 r.rdata.length) ++ r.rdata := by
    simp [Rec.toRR, RR.enc]
  have hhl : (be16 r.type ++ r.cls ++ be32 r.ttl ++ be16 r.rdata.length).length = 10 := by
    simp [be16_length, be32, hr.ok.cls]
  rw [henc] at hb
  have hbn := bytesAt_left (bytesAt_left hb)
  have hbh := bytesAt_right (bytesAt_left hb)
  have hbr : BytesAt u.mem (pos + (encName r.name).length + 10) r.rdata := by
    have := bytesAt_right hb
    rwa [List.length_append, hhl, ← Nat.add_assoc] at this
  generalize hoff : pos + (encName r.name).length = off at hres hbh hbr hub
  rw [compressRr] at hres
  simp only [hu.sane, hc.sane, hq.sane, hs.sane, Bool.not_true, Bool.or_self, Bool.false_eq_true, if_false] at hres
  rw [if_neg (by omega)] at hres
  -- the owner name
  rcases compressName_safe hu hq junk 300 pos hc hs with e | ⟨r0, c0, s0, e0, g1, g2⟩
  · rw [compressDlabels] at hres
    simp only [hu.sane, hc.sane, hs.sane, Bool.not_true, Bool.or_self,
      decide_eq_false (show ¬ pos > u.len by omega), Bool.false_eq_true, if_false] at hres
    rw [e] at hres; cases hres
  have hd : compressDlabels u q junk 1 pos c s = if r0 > u.len then .err else .ok (r0, c0, s0) := by
    rw [compressDlabels]
    simp only [hu.sane, hc.sane, hs.sane, Bool.not_true, Bool.or_self,
      decide_eq_false (show ¬ pos > u.len by omega), Bool.false_eq_true, if_false]
    rw [e0, Res.ok_bind]
    simp only [compressDlabels, hu.sane, g1.1.sane, g2.1.sane, Bool.not_true, Bool.or_self, Bool.false_or,
      decide_eq_true_eq]
  rw [hd] at hres
  by_cases hr0 : r0 > u.len
  · rw [if_pos hr0] at hres; cases hres
  rw [if_neg hr0] at hres
  simp only [Res.ok_bind] at hres
  by_cases hr0' : r0 = off
  swap
  · rw [if_pos hr0'] at hres; cases hres
  rw [if_neg (by simp [hr0'])] at hres
  subst hr0'
  -- the fixed fields
  obtain ⟨tmp, t1, t2, t3⟩ := copy_piece hu hc hbh (by rw [hhl]; omega) (by rw [hhl]; omega) junk
  rw [hhl] at t1
  have t1' : u.substr (r0 : Int) 10 1 junk = .ok tmp := t1
  rw [t1', Res.ok_bind] at hres
  obtain ⟨c1, e1, u1, m1, x1⟩ := append_squeeze t2 g1.1
  rw [e1, Res.ok_bind] at hres
  have hc0l : c0.len ≤ c1.len := by
    obtain ⟨y, hy⟩ := squeeze_ext c0.max [tmp.contents] c0.contents
    rw [← g1.1.clen, ← u1.clen, x1, hy]; simp
  have htype : BytesAt u.mem r0 (be16 r.type) := bytesAt_left (bytesAt_left (bytesAt_left hbh))
  have hrdl : BytesAt u.mem (r0 + 8) (be16 r.rdata.length) := by
    have := bytesAt_right hbh
    rwa [show (be16 r.type ++ r.cls ++ be32 r.ttl).length = 8 by simp [be16_length, be32, hr.ok.cls]] at this
  rw [fetchI_at hu htype hr.ok.type, Res.ok_bind] at hres
  simp only [if_neg (show ¬ ((r.type : Int) < 0) by omega), Int.toNat_natCast] at hres
  have hlead := hr.ok.form
  have hc0' : c.len ≤ c0.len := g1.len hc
  -- once the name and the fixed fields are known to be there
  have hdr : c1.len ≤ c'.len → c1.contents = c0.contents ++ (be16 r.type ++ r.cls ++ be32 r.ttl ++ be16 r.rdata.length) ∧
      c1.len = c0.len + 10 := by
    intro hle
    have hfit : c0.contents.length + 10 < c0.max := by
      have := g1.2.1
      rw [g1.1.clen]; omega
    have hx : c1.contents = c0.contents ++ (be16 r.type ++ r.cls ++ be32 r.ttl ++ be16 r.rdata.length) := by
      rw [x1, t3, squeeze_fits _ _ _ (by simp only [List.flatten_cons, List.flatten_nil, List.append_nil, hhl]; exact hfit)]
      simp
    exact ⟨hx, by rw [← u1.clen, hx, List.length_append, hhl, g1.1.clen]⟩
  have own : c0.len ≤ c'.len → _ := fun hle =>
    compressName_mem hu hq hc hs (M := c.mem) (fun _ _ h => h) hst hbig hr.name hbn e0 (by omega)
  -- copying the data as they are
  have plain : (do
        let len ← u.fetchI (r0 + 8 : Nat)
        let tmp ← u.substr (r0 + 10 : Nat) len 1 junk
        let c ← append tmp c1
        .ok (c, s0)) = Res.ok (c', s') →
      Usable c' ∧ Usable s' ∧ c'.max = c.max ∧ MemLe c.mem c'.mem ∧ c.len ≤ c'.len ∧ Stk c'.mem c'.len q s' ∧
      ∃ r', SameRec r r' ∧ RecBk c'.mem q.mem c'.len q.len c.len r' c'.len := by
    intro hres
    rw [fetchI_at hu hrdl hr.ok.size, Res.ok_bind] at hres
    obtain ⟨tm, q1, q2, q3⟩ := copy_piece hu hc hbr (by omega) hr.ok.size junk
    rw [q1, Res.ok_bind] at hres
    rcases append_safe q2.live u1 with e3 | ⟨c3, e3, -⟩
    · rw [e3] at hres; cases hres
    obtain ⟨f1, f2, f3⟩ := append_inv q2 u1 e3
    rw [e3, Res.ok_bind] at hres
    simp only [Res.ok.injEq, Prod.mk.injEq] at hres
    obtain ⟨rfl, rfl⟩ := hres
    rw [q3] at f3
    have hc3l : c3.len = c1.len + r.rdata.length := by rw [← f1.clen, f3, List.length_append, u1.clen]
    obtain ⟨x1, hc1l⟩ := hdr (by omega)
    obtain ⟨k1, k2, k3, k4, k5, ⟨x, k6⟩, ⟨n, ls, k7, k8, k9⟩, k10, k11⟩ := own (by omega)
    have hM0 : MemLe (ext c.mem c.len c0.mem) c0.mem := ext_mem_le (fun _ _ h => h) k6
    have hM3 : MemLe c0.mem c3.mem := mem_append (c := c0) (c' := c3) (x := _ ++ r.rdata) (by rw [f3, x1]; exact List.append_assoc ..)
    have hM : MemLe (ext c.mem c.len c0.mem) c3.mem := fun i v hv => hM3 _ _ (hM0 _ _ hv)
    have hrb : BytesAt c3.mem (c0.len + 10) r.rdata := by rw [← hc1l]; exact mem_new_bytes u1 f3
    refine ⟨f1, k3, by rw [f2, m1, k4], fun i v hv => hM3 _ _ (mem_append k6 _ _ hv), by omega,
      k11.mono hM (by omega), { r with name := ls },
      ⟨k8, rfl, rfl, rfl, rfl, sameNames_refl r.names, rfl⟩,
      ⟨n, c0.len, c0.len + 10 + r.lead.length + (r.names.flatMap encName).length, k7, nameAt_mono hM (by omega) k9,
        endsAt_mono hM k10, ?_, ?_, bytesAt_left (bytesAt_left hrb), ?_, ?_, ?_⟩⟩
    · rw [show c3.len - (c0.len + 10) = r.rdata.length by omega]
      exact bytesAt_mono (mem_append f3) (mem_new_bytes g1.1 x1)
    · have := hr.ok.size; omega
    · exact plain_names (fun n hn => ⟨(hr.names n hn).1, (hr.names n hn).2.1⟩) (bytesAt_right (bytesAt_left hrb))
    · have := bytesAt_right hrb
      rwa [List.length_append, ← Nat.add_assoc] at this
    · have hrl : r.rdata.length = r.lead.length + (r.names.flatMap encName).length + r.tail.length := by
        simp [Rec.rdata, -List.length_flatMap]; omega
      simp only; omega
  rcases typeDesc_layout r.type with ⟨ht, hl⟩ | ⟨f, ⟨lead, names, tail⟩, ht, hl⟩
  · rw [ht] at hres
    exact plain hres
  · rw [ht] at hres
    cases f with
    | false => exact plain hres
    | true =>
      rw [hl] at hlead
      simp only [Option.getD_some, Prod.mk.injEq] at hlead
      obtain ⟨q1, q2, q3⟩ := hlead
      subst q1 q2 q3
      simp only at hres
      have hsmall : r.lead.length ≤ 100 ∧ r.tail.length ≤ 100 := by
        have := rdLayout_small hl
        exact this
      rcases compRddata_safe hu hq u1 g2.1 r.lead.length r.names.length r.tail.length (r0 + 10) hsmall.1 hsmall.2 junk with e3 | ⟨e4, c3, s3, e3, g3, g4⟩
      · rw [e3] at hres; cases hres
      rw [e3] at hres
      simp only [Res.ok_bind] at hres
      have hlim1 := u1.lim
      have hlt1 := u1.lt
      obtain ⟨c4, e5, u4, m4, hl4⟩ := putU16_longer g3.1 ((c3.len - c1.len) % 65536) ((c1.len : Int) - 2) (by omega)
      rw [e5] at hres
      simp only [Res.ok_bind, Res.ok.injEq, Prod.mk.injEq] at hres
      obtain ⟨rfl, rfl⟩ := hres
      have hl3 := g3.len u1
      have hmax : c3.max = c1.max := g3.2.1
      obtain ⟨x1, hc1l⟩ := hdr (by omega)
      obtain ⟨k1, k2, k3, k4, k5, ⟨x, k6⟩, ⟨n, ls, k7, k8, k9⟩, k10, k11⟩ := own (by omega)
      have hM0 : MemLe (ext c.mem c.len c0.mem) c0.mem := ext_mem_le (fun _ _ h => h) k6
      have h01 : MemLe c0.mem (hole (c0.len + 8) c1) := by
        intro i v hv
        have := mem_lt g1.1 hv
        simp only [hole]
        rw [if_neg (by omega)]
        exact mem_append x1 _ _ hv
      obtain ⟨j1, j2, j3, j4, ⟨y, j5⟩, j6, ns, k, j7, j8, j9, j10, j11⟩ :=
        compRddata_exact hu hq u1 g2.1 junk (h := c0.len + 8) (by omega)
          (k11.mono (fun i v hv => h01 _ _ (hM0 _ _ hv)) (by omega)) (by rw [m1, k4]; exact hbig)
          hr.names hbr (by omega) hr.ok.size e3 (by rw [m1, k4]; omega)
      -- the length field
      have hpre : c3.contents = (c0.contents ++ (be16 r.type ++ r.cls ++ be32 r.ttl)) ++ be16 r.rdata.length ++ y := by
        rw [j5, x1]; simp
      have hprel : (c0.contents ++ (be16 r.type ++ r.cls ++ be32 r.ttl)).length = c0.len + 8 := by
        simp [g1.1.clen, be16_length, be32, hr.ok.cls]
      have hlen3 : c3.contents.length ≤ 16777215 := by
        have := j1.lt
        rw [j1.clen]; omega
      obtain ⟨c5, p1, p2, p3, p4⟩ := putU16_at (w := (c3.len - c1.len) % 65536) j1 hpre hlen3
      rw [hprel, show ((c0.len + 8 : Nat) : Int) = (c1.len : Int) - 2 by omega, e5] at p1
      injection p1 with p1
      subst p1
      have hl45 : c4.len = c3.len := by rw [← p2.clen, ← j1.clen, p4, hpre]; simp [be16_length]
      have hle4 : MemLe (hole (c0.len + 8) c3) c4.mem := by
        intro i v hv
        simp only [hole] at hv
        split at hv
        · cases hv
        · rename_i hne
          simp only [mem, memOf] at hv ⊢
          rw [hpre] at hv
          rw [p4]
          by_cases hi : i < c0.len + 8
          · rw [List.getElem?_append_left (by simp only [List.length_append, hprel] at hprel ⊢; omega),
              List.getElem?_append_left (by omega)] at hv ⊢
            exact hv
          · rw [List.getElem?_append_right (by simp only [List.length_append, be16_length] at hprel ⊢; omega)] at hv ⊢
            simpa [be16_length] using hv
      have hM4 : MemLe c0.mem c4.mem := fun i v hv => hle4 _ _ (hole_grow j5 _ _ (h01 _ _ hv))
      have hM : MemLe (ext c.mem c.len c0.mem) c4.mem := fun i v hv => hM4 _ _ (hM0 _ _ hv)
      have hval : (c3.len - c1.len) % 65536 = c4.len - (c0.len + 10) := by omega
      refine ⟨p2, j2, by rw [p3, j3, m1, k4], fun i v hv => hM4 _ _ (mem_append k6 _ _ hv), by omega,
        j6.mono hle4 (by omega), { r with name := ls, names := ns },
        ⟨k8, rfl, rfl, rfl, rfl, j7, rfl⟩,
        ⟨n, c0.len, k, k7, nameAt_mono hM (by omega) k9, endsAt_mono hM k10, ?_, by omega, ?_, ?_, ?_, by
          rw [hl45]; exact j11⟩⟩
      · rw [hval] at p4
        have e1 : c4.contents = c0.contents ++ (be16 r.type ++ r.cls ++ be32 r.ttl ++ be16 (c4.len - (c0.len + 10))) ++ y := by
          rw [p4]; simp
        have := bytesAt_mid e1
        rwa [g1.1.clen] at this
      · have := bytesAt_mono hle4 j8
        rwa [hc1l] at this
      · have := namesAt_mono hle4 (show c3.len ≤ c4.len by omega) j9
        rwa [hc1l] at this
      · exact bytesAt_mono hle4 j10

theorem compressRrs_exact {u q : DwStr} (hu : Usable u) (hq : Usable q) (junk : List UInt8) :
    ∀ (rs : List Rec) {pos : Nat} {c s : DwStr}, Usable c → Usable s → Stk c.mem c.len q s →
    c.max + q.len + 14 ≤ 16384 → (∀ r ∈ rs, RecOk r) → BytesAt u.mem pos ((rs.map Rec.toRR).flatMap RR.enc) →
    ∀ {c' s' : DwStr}, compressRrs u q junk (offsets pos (rs.map Rec.toRR)) c s = .ok (c', s') →
    c'.len + 64 < c.max →
    Usable c' ∧ c'.max = c.max ∧ MemLe c.mem c'.mem ∧
    ∃ rs', SameRecs rs rs' ∧ RecsBk c'.mem q.mem c'.len q.len c.len rs' c'.len := by
  intro rs
  induction rs with
  | nil =>
    intro pos c s hc hs _ _ _ _ c' s' hres _
    simp only [List.map_nil, offsets, compressRrs, Res.ok.injEq, Prod.mk.injEq] at hres
    obtain ⟨rfl, rfl⟩ := hres
    exact ⟨hc, rfl, fun _ _ h => h, [], trivial, .nil⟩
  | cons r rs ih =>
    intro pos c s hc hs hst hbig hok hb c' s' hres hroom
    simp only [List.map_cons, offsets, compressRrs] at hres
    rw [List.map_cons, List.flatMap_cons] at hb
    have hr := hok r (by simp)
    rcases compressRr_safe hu hq hc hs (pos, pos + r.toRR.name.length) junk with e | ⟨c1, s1, e, u1, m1, l1, g1⟩
    · rw [e] at hres; cases hres
    rw [e] at hres
    simp only [Res.ok_bind] at hres
    have hl : c1.len ≤ c'.len := by
      rcases compressRrs_safe hu hq junk (offsets (pos + r.toRR.size) (rs.map Rec.toRR)) u1 g1.1 with e' | ⟨_, _, e', -, -, l2⟩
      · rw [e'] at hres; cases hres
      · rw [e'] at hres; cases hres; exact l2
    obtain ⟨k1, k2, k3, k4, k5, k6, r', k7, k8⟩ := compressRr_exact hu hq hc hs junk hst hbig hr (bytesAt_left hb) e (by omega)
    have hb2 := bytesAt_right hb
    rw [RR.enc_length (Rec.toRR_ok hr.ok)] at hb2
    obtain ⟨j1, j2, j3, rs', j4, j5⟩ := ih k1 k2 k6 (by rw [k3]; exact hbig) (fun x hx => hok x (by simp [hx]))
      hb2 hres (by rw [k3]; exact hroom)
    exact ⟨j1, by rw [j2, k3], fun i v hv => j3 _ _ (k4 _ _ hv), r' :: rs', ⟨k7, j4⟩,
      .cons (recAt_mono j3 hl k8) j5⟩

theorem offsets_append (pos : Nat) (a b : List RR) : offsets pos (a ++ b) = offsets pos a ++ offsets (pos + sizes a) b := by
  induction a generalizing pos with
  | nil => simp [offsets, sizes]
  | cons r a ih =>
    simp only [List.cons_append, offsets, ih]
    congr 2
    simp only [sizes, List.map_cons, List.sum_cons]
    congr 1; omega

/-- The stack made from the question. -/
theorem pushOffsetsLoop_plain {q : DwStr} (hq : Usable q) (M : Mem) (clen : Nat) (hq2 : q.len < 16000) {place : Nat} {ls : List (List UInt8)}
    (h : PlainAt q.mem place ls) : ∀ (n : Nat) {s s' : DwStr}, Usable s → ls.length < n → Stk M clen q s →
    pushOffsetsLoop q 0x8000 n place s = .ok s' → Usable s' ∧ Stk M clen q s' := by
  induction h with
  | @root i h =>
    intro n s s' hs hn hst hres
    obtain ⟨n, rfl⟩ : ∃ m, n = m + 1 := ⟨n - 1, by omega⟩
    have hlt := mem_lt hq h
    rw [pushOffsetsLoop, if_neg (by omega), mem_peek h, Res.ok_bind, if_pos (by decide)] at hres
    cases hres
    exact ⟨hs, hst⟩
  | @label i l ls hl hrest ih =>
    intro n s s' hs hn hst hres
    obtain ⟨n, rfl⟩ : ∃ m, n = m + 1 := ⟨n - 1, by omega⟩
    have hlt := mem_lt hq hl.len
    have hby := labelAt_byte hl
    have htn : (UInt8.ofNat l.length).toNat = l.length := ofNat_len hl.le
    rw [pushOffsetsLoop, if_neg (by omega), mem_peek hl.len, Res.ok_bind,
      if_neg (by intro h; rcases h with h | h; exact hby.1 h; exact hby.2.2 h),
      if_neg (by rw [UInt8.le_iff_toNat_le, htn]; have := hl.le; simp; omega), if_neg (by omega)] at hres
    rcases pushU16_safe hs (v := i + 32768) with e | ⟨s1, e, u1, m1, c1⟩
    · rw [e] at hres; cases hres
    rw [e, Res.ok_bind, htn] at hres
    refine ih n u1 (by simp at hn; omega) ?_ hres
    obtain ⟨es, h1, h2⟩ := hst
    refine ⟨es ++ [i + 32768], by rw [c1, h1]; simp [enc16], ?_⟩
    intro e he
    rcases List.mem_append.1 he with he | he
    · exact h2 e he
    · simp at he
      subst he
      refine ⟨l :: ls, by simp, Or.inl ⟨by omega, by omega, ?_⟩⟩
      rw [show (i + 32768) % 16384 = i by omega]
      exact .label hl hrest

end DwStr
end Dw
