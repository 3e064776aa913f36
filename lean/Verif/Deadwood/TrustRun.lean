import Verif.Deadwood.TrustInv
/-!
# Lemmas: over any sequence of events
-/

namespace Dw
namespace Trust
open DwStr Spec Dissect Incoming
open Acl (rd wr)

/-- What was heard stays. -/
structure Grows (s s' : State) : Prop where
  heard : ∀ x ∈ s.heard, x ∈ s'.heard
  judged : ∀ x ∈ s.judged, x ∈ s'.judged

theorem Grows.refl (s : State) : Grows s s := ⟨fun _ h => h, fun _ h => h⟩

theorem Grows.trans {a b c : State} (h : Grows a b) (h' : Grows b c) : Grows a c :=
  ⟨fun x hx => h'.heard x (h.heard x hx), fun x hx => h'.judged x (h.judged x hx)⟩

theorem Grows.of_eq {s s' : State} (h : s'.heard = s.heard ∧ s'.judged = s.judged) : Grows s s' :=
  ⟨fun x hx => by rw [h.1]; exact hx, fun x hx => by rw [h.2]; exact hx⟩

theorem connect_same {cfg : Cfg} {s s' : State} {b : Nat} {w : Wire} {junk : List UInt8}
    (hc : connect cfg s b w junk = .ok s') : s'.heard = s.heard ∧ s'.judged = s.judged := by
  unfold connect at hc
  cases hb : s.slots b with
  | none => rw [hb] at hc; cases hc; exact ⟨rfl, rfl⟩
  | some sl =>
  rw [hb] at hc
  dsimp only at hc
  cases hr : whom s sl junk with
  | err => rw [hr] at hc; cases hc
  | ub => rw [hr] at hc; cases hc
  | ok r =>
  rw [hr, Res.ok_bind] at hc
  cases r with
  | none => cases hc; exact ⟨rfl, rfl⟩
  | some lu =>
  obtain ⟨l, up⟩ := lu
  dsimp only at hc
  cases hf : findAddr cfg s.cache (Remote.dstr l) (w.tries.take 7) sl.current with
  | err => rw [hf] at hc; cases hc
  | ub => rw [hf] at hc; cases hc
  | ok fc =>
  obtain ⟨f, current⟩ := fc
  rw [hf, Res.ok_bind] at hc
  cases f with
  | nobody => cases hc; exact ⟨rfl, rfl⟩
  | ip a => cases hc; exact ⟨rfl, rfl⟩
  | name q =>
    dsimp only at hc
    split at hc <;> (cases hc; exact ⟨rfl, rfl⟩)

theorem refer_same {cfg : Cfg} {s s' : State} {b : Nat} {sl : Slot} {l : List UInt8} {kept : Bool} {w : Wire} {junk : List UInt8}
    (h : refer cfg s b sl l kept w junk = .ok s') : s'.heard = s.heard ∧ s'.judged = s.judged := by
  unfold refer at h
  split at h
  · have := connect_same h
    exact this
  · cases h; exact ⟨rfl, rfl⟩

theorem follow_same {cfg : Cfg} {s s' : State} {b : Nat} {sl : Slot} {a q : List UInt8} {most : Int} {w : Wire} {junk : List UInt8}
    (h : follow cfg s b sl a q most w junk = .ok s') : s'.heard = s.heard ∧ s'.judged = s.judged := by
  unfold follow at h
  split at h
  · split at h
    · cases h; exact ⟨rfl, rfl⟩
    · cases h; exact ⟨rfl, rfl⟩
    · cases h
  · split at h <;> (cases h; exact ⟨rfl, rfl⟩)

/-- What one pass does: nothing; a refused address ends the request; or the packet is taken. -/
theorem pass_cases {cfg : Cfg} {s s' : State} {b : Nat} {sl : Slot} {from_ a a' : List UInt8} {count : Nat} {most : Int} {w : Wire}
    {junk : List UInt8} {go : Bool} (h : pass cfg s b sl from_ a count most w junk = .ok (s', a', go)) :
    (∃ k, Remote.salvage a count cfg.hack = .ok (some (a', k)) ∧
      (s' = s ∨ s' = s.set b none ∨ ∃ l st, sl.ns = some l ∧
        cacheDnsReply cfg.times cfg.filter cfg.blocked (Remote.dstr l) sl.up a' k junk = .ok (.step st) ∧
        let s1 : State := ⟨putAll s.cache st.puts, s.slots, (from_, a'.take k) :: s.heard, l :: s.judged⟩
        ((∃ l', st.ns = some l' ∧ refer cfg s1 b sl l' (!st.puts.isEmpty) w junk = .ok s') ∨
         (∃ q p, st.ns = none ∧ st.follow = some q ∧ st.puts = [p] ∧ follow cfg s1 b sl p.value q most w junk = .ok s') ∨
         s' = s1))) ∨ (s' = s ∧ a' = a) := by
  unfold pass at h
  cases h1 : Remote.salvage a count cfg.hack with
  | err => rw [h1] at h; cases h
  | ub => rw [h1] at h; cases h
  | ok o =>
  rw [h1, Res.ok_bind] at h
  cases o with
  | none => cases h; exact .inr ⟨rfl, rfl⟩
  | some ak =>
  obtain ⟨a1, k⟩ := ak
  dsimp only at h
  cases h2 : rd a1 2 with
  | err => rw [h2] at h; cases h
  | ub => rw [h2] at h; cases h
  | ok f =>
  rw [h2, Res.ok_bind] at h
  left
  split at h
  · cases h; exact ⟨k, rfl, .inl rfl⟩
  cases hn : sl.ns with
  | none => rw [hn] at h; cases h; exact ⟨k, rfl, .inl rfl⟩
  | some l =>
  rw [hn] at h
  dsimp only at h
  cases h3 : cacheDnsReply cfg.times cfg.filter cfg.blocked (Remote.dstr l) sl.up a1 k junk with
  | err => rw [h3] at h; cases h; exact ⟨k, rfl, .inl rfl⟩
  | ub => rw [h3] at h; cases h
  | ok rc =>
  rw [h3] at h
  cases rc with
  | blocked => cases h; exact ⟨k, rfl, .inr (.inl rfl)⟩
  | step st =>
    dsimp only at h
    have aux : ∀ (r : Res State) , (r.bind fun s => Res.ok (s, a1, true)) = .ok (s', a', go) → r = .ok s' ∧ a1 = a' := by
      intro r hr
      cases r with
      | err => cases hr
      | ub => cases hr
      | ok x => cases hr; exact ⟨rfl, rfl⟩
    split at h
    · rename_i l' e1
      obtain ⟨g1, g2⟩ := aux _ h
      subst g2
      exact ⟨k, rfl, .inr (.inr ⟨l, st, rfl, h3, .inl ⟨l', e1, g1⟩⟩)⟩
    · rename_i q p e1 e2 e3
      obtain ⟨g1, g2⟩ := aux _ h
      subst g2
      exact ⟨k, rfl, .inr (.inr ⟨l, st, rfl, h3, .inr (.inl ⟨q, p, e1, e2, e3, g1⟩)⟩)⟩
    · cases h
      exact ⟨k, rfl, .inr (.inr ⟨l, st, rfl, h3, .inr (.inr rfl)⟩)⟩

theorem pass_grows {cfg : Cfg} {s s' : State} {b : Nat} {sl : Slot} {from_ a a' : List UInt8} {count : Nat} {most : Int} {w : Wire}
    {junk : List UInt8} {go : Bool} (h : pass cfg s b sl from_ a count most w junk = .ok (s', a', go)) : Grows s s' := by
  rcases pass_cases h with ⟨k, -, e | e | ⟨l, st, -, -, h⟩⟩ | ⟨e, -⟩
  · rw [e]; exact .refl s
  · rw [e]; exact ⟨fun _ h => h, fun _ h => h⟩
  · have hg : Grows s ⟨putAll s.cache st.puts, s.slots, (from_, a'.take k) :: s.heard, l :: s.judged⟩ :=
      ⟨fun _ h => List.mem_cons_of_mem _ h, fun _ h => List.mem_cons_of_mem _ h⟩
    refine hg.trans (.of_eq ?_)
    rcases h with ⟨l', -, h⟩ | ⟨q, p, -, -, -, h⟩ | h
    · exact refer_same h
    · exact follow_same h
    · rw [h]; exact ⟨rfl, rfl⟩
  · rw [e]; exact .refl s

theorem passes_grows {cfg : Cfg} {b : Nat} {from_ junk : List UInt8} {count : Nat} :
    ∀ {n : Nat} {s s' : State} {a : List UInt8} {ws : List (Wire × Int)}, passes cfg b from_ count junk n s a ws = .ok s' → Grows s s'
  | 0, s, s', a, ws, h => by cases h; exact .refl s
  | n + 1, s, s', a, ws, h => by
    unfold passes at h
    cases hb : s.slots b with
    | none => rw [hb] at h; cases h; exact .refl s
    | some sl =>
    rw [hb] at h
    dsimp only at h
    cases hp : pass cfg s b sl from_ a count (ws.headD default).2 (ws.headD default).1 junk with
    | err => rw [hp] at h; cases h
    | ub => rw [hp] at h; cases h
    | ok x =>
    obtain ⟨s1, a1, go⟩ := x
    rw [hp, Res.ok_bind] at h
    dsimp only at h
    have hg := pass_grows hp
    split at h
    · exact hg.trans (passes_grows h)
    · cases h; exact hg

/-- What holds between the passes of one packet. -/
structure Passing {cfg : Cfg} (B : Belief cfg) (b : Nat) (query from_ : List UInt8) (s : State) : Prop where
  inv : Inv B s
  same : ∀ sl, s.slots b = some sl → sl.query = query ∧ FromOk B s.heard query sl.ns from_

theorem Inv.hear {cfg : Cfg} {B : Belief cfg} {s : State} (h : Inv B s) {ps : List Put} {heard : Log} {judged : List (List UInt8)}
    (hh : ∀ x ∈ s.heard, x ∈ heard) (hp : ∀ p ∈ ps, EntryOk B heard ⟨p.key, p.value, false⟩) :
    Inv B ⟨putAll s.cache ps, s.slots, heard, judged⟩ := by
  refine ⟨?_, fun b sl hsl => (h.slots b sl hsl).mono hh, fun c cs b p l h1 h2 h3 h4 => (h.glue c cs b p l h1 h2 h3 h4).mono hh⟩
  intro e he
  rcases mem_putAll he with he | ⟨p, hp', rfl⟩
  · exact (h.cache e he).mono hh
  · exact hp p hp'

theorem pass_inv {cfg : Cfg} {B : Belief cfg} (hgt : cfg.glueType < 65536 ∧ cfg.glueType ≠ 65394 ∧ cfg.glueType ≠ 65395)
    {s s' : State} {b : Nat} {sl : Slot} {query from_ a0 a a' : List UInt8} {count : Nat} {most : Int} {w : Wire}
    {junk : List UInt8} {go : Bool} (h : pass cfg s b sl from_ a count most w junk = .ok (s', a', go))
    (P : Passing B b query from_ s) (hb : s.slots b = some sl)
    (hq : Remote.question a0 count = .ok query) (hd : a.drop 12 = a0.drop 12) (hl : a.length = a0.length) (h520 : a0.length = 520)
    (h12 : 12 ≤ count) (hcount : count ≤ 512) (hmsg : ∀ x ∈ s'.heard, B.readable x.2) (hjudge : [0, 16] ∉ s'.judged) :
    Passing B b query from_ s' ∧ a'.drop 12 = a0.drop 12 ∧ a'.length = a0.length := by
  obtain ⟨hsq, hfrom⟩ := P.same sl hb
  have hsl := P.inv.slots b sl hb
  have hgrow := pass_grows h
  rcases pass_cases h with ⟨k, hk, hcase⟩ | ⟨rfl, rfl⟩
  swap
  · exact ⟨P, hd, hl⟩
  obtain ⟨k1, k2, k3⟩ := salvage_spec hk
  refine ⟨?_, k1.trans hd, k2.trans hl⟩
  rcases hcase with rfl | rfl | ⟨l, st, hns, hst, hcase⟩
  · exact P
  · exact ⟨P.inv.drop b, fun x hx => by rw [set_same] at hx; cases hx⟩
  -- the packet is taken
  have hheard : (from_, a'.take k) ∈ s'.heard ∧ l ∈ s'.judged := by
    dsimp only at hcase
    rcases hcase with ⟨l', -, h⟩ | ⟨q, p, -, -, -, h⟩ | h
    · obtain ⟨e1, e2⟩ := refer_same h; rw [e1, e2]; simp
    · obtain ⟨e1, e2⟩ := follow_same h; rw [e1, e2]; simp
    · rw [h]; simp
  have hlne : l ≠ [0, 16] := fun e => hjudge (by rw [← e]; exact hheard.2)
  have hread := hmsg _ hheard.1
  dsimp only at hread
  have hkl : (a'.take k).length = k := by rw [List.length_take]; omega
  have hcame : Came cfg (a'.take k) (a'.drop k) a0 count query l sl.up junk st := by
    refine ⟨by omega, by rw [List.length_drop]; omega, hq, ?_, h12, by omega, by omega, ?_, by omega, ?_⟩
    · rw [List.take_append_drop, k1, hd]
    · rw [hkl, List.length_drop]; omega
    · rw [List.take_append_drop, hkl]; exact hst
  obtain ⟨qn, ty, hask, hty⟩ := B.asked hread hcame
  have hty : ty < 65536 ∧ ty ≠ 65394 ∧ ty ≠ 65395 := ⟨hask.2.1, hty⟩
  have hqm : query = encName qn ++ be16 ty := hask.2.2
  rcases hfrom _ _ hask l hns with e | ⟨z, z0, hj, hbz, hz0, hzz⟩
  · exact absurd e hlne
  have hservers : Servers (Remote.dstr l) z := ⟨Remote.dstr_usable hj.lim, hj.name, by
    rw [Remote.dstr_contents]; exact hj.begins⟩
  have K := B.taken hread hcame hask hservers hbz hz0 hzz
  have hh : ∀ x ∈ s.heard, x ∈ (from_, a'.take k) :: s.heard := fun x hx => List.mem_cons_of_mem _ hx
  have I1 : Inv B ⟨putAll s.cache st.puts, s.slots, (from_, a'.take k) :: s.heard, l :: s.judged⟩ := by
    refine P.inv.hear hh ?_
    intro e he
    rcases K.puts e he with ⟨e1, e2⟩ | ⟨e1, e2⟩ | ⟨z', x, e1, e2, e3, e4, e5⟩ | ⟨e1, e2⟩
    · exact ⟨qn, ty, hask.1, hty.1, e1, fun h => absurd h hty.2.2, fun h => absurd h hty.2.1, fun _ _ => e2⟩
    · exact ⟨qn, 65394, hask.1, by omega, e1, fun h => (by omega), fun _ => e2, fun _ h => absurd rfl h⟩
    · exact ⟨z', 65395, e1, by omega, e3, fun _ => .inr ⟨e1, e2, ⟨x, e4⟩, e5⟩, fun h => (by omega), fun h => absurd rfl h⟩
    · exact ⟨[], 65395, ⟨by simp [LabelsOk], by decide⟩, by omega, e1, fun _ => .inl ⟨rfl, e2⟩, fun h => (by omega), fun h => absurd rfl h⟩
  have hsl1 : SlotOk B ((from_, a'.take k) :: s.heard) sl := hsl.mono hh
  have hnarrow : ∀ l', st.ns = some l' → ∀ q t, Asked query q t → l' = [0, 16] ∨ ∃ z z', Judge B s.heard z l ∧
      Judge B ((from_, a'.take k) :: s.heard) z' l' ∧ Below z' z ∧ Below q z' := by
    intro l' hl' q t ha
    rcases K.next l' hl' with e | ⟨z', x, e1, e2, e3, e4, e5, e6⟩
    · exact .inl e
    · right
      refine ⟨z, z', hj, ⟨e1, e2, ⟨x, e5⟩, e6⟩, e3, ?_⟩
      obtain ⟨e, -⟩ := key_inj ha.1 hask.1 ha.2.1 hask.2.1 (ha.2.2.symm.trans hask.2.2)
      rw [e]
      exact e4
  have hF : ∀ l' f, st.ns = some l' → FromOk B s.heard query sl.ns f →
      FromOk B ((from_, a'.take k) :: s.heard) query (some l') f := by
    intro l' f hl' hf
    rw [hns] at hf
    exact hf.narrow hh hlne (hnarrow l' hl')
  dsimp only at hcase
  rcases hcase with ⟨l', hl', h⟩ | ⟨q, p, -, hfo, hput, h⟩ | h
  · -- a referral
    have hns' : NsOk B ((from_, a'.take k) :: s.heard) sl.query (some l') := by
      intro q t ha m' hm'
      cases hm'
      rw [hsq] at ha
      exact (hnarrow l' hl' q t ha).imp id fun ⟨_, z', _, h2, _, h4⟩ => ⟨z', h2, h4⟩
    have hG : ∀ x, GlueOk B ((from_, a'.take k) :: s.heard) sl.query sl.ns x →
        GlueOk B ((from_, a'.take k) :: s.heard) sl.query (some l') x := by
      intro x hx
      refine ⟨?_, by simp⟩
      rw [hsq, hns] at hx
      rw [hsq]
      refine FromOk.narrow (fun _ h => h) hx.1 hlne ?_
      intro q t ha
      exact (hnarrow l' hl' q t ha).imp id fun ⟨z1, z2, g1, g2, g3, g4⟩ => ⟨z1, z2, g1.mono hh, g2, g3, g4⟩
    unfold refer at h
    split at h
    · have I2 := I1.update (b := b) (sl := sl) (sl' := { sl with ns := some l', sock := none }) hb
        ⟨hsl.ordinary, hns', fun _ hk => (by cases hk), fun hn => (by cases hn), hsl1.seen⟩ rfl rfl hG
      obtain ⟨J1, J2, J3, J4⟩ := connect_inv I2 hgt h
      refine ⟨J1, ?_⟩
      obtain ⟨sl', g1, g2, g3⟩ := J4 _ (set_same _ _ _)
      intro x hx
      rw [g1] at hx
      cases hx
      refine ⟨g2.trans hsq, ?_⟩
      rw [J2, g3 l' rfl]
      exact hF l' from_ hl' hfrom
    · cases h
      refine ⟨I1.update (b := b) (sl := sl) hb ⟨hsl.ordinary, hns', ?_, fun hn => (by cases hn), hsl1.seen⟩ rfl rfl hG, ?_⟩
      · intro k' hk'
        have := hsl.sock k' hk'
        rw [hsq] at this
        show FromOk _ _ sl.query _ _
        rw [hsq]
        exact hF l' _ hl' this
      · intro x hx
        rw [set_same] at hx
        cases hx
        exact ⟨hsq, hF l' from_ hl' hfrom⟩
  · -- an alias
    obtain ⟨e, n, e1, e3, e4⟩ := K.follow q hfo
    rw [hput] at e1
    cases e1
    unfold follow at h
    split at h
    · rename_i v hv
      split at h
      · rename_i pp hpp
        cases h
        obtain ⟨e', he', hk', hv'⟩ := get_mem hv
        obtain ⟨z', t', f1, f2, f3, f4, f5, f6⟩ := I1.cache e' he'
        have ht' : t' = ty := by
          have : encName z' ++ be16 t' = n ++ be16 ty := by rw [← f3, hk', e4]
          have hl := congrArg List.length this
          simp only [List.length_append, be16_length] at hl
          exact be16_inj f2 hty.1 (List.append_inj this (by omega)).2
        rw [ht'] at f6
        have hrest := f6 hty.2.2 hty.2.1
        rw [hv'] at hrest
        refine ⟨(I1.put ?_).drop b, fun x hx => by rw [set_same] at hx; cases hx⟩
        refine ⟨qn, ty, hask.1, hty.1, ?_, fun h => absurd h hty.2.2, fun h => absurd h hty.2.1, fun _ _ => ?_⟩
        · show pp.key = _
          rw [makeReply_key hpp, Remote.dstr_contents, hsq, hqm]
        · exact B.joined e3 hrest ⟨_, _, _, pp, hpp, rfl⟩
      · cases h
        exact ⟨I1, fun x hx => by
          rw [show s.slots b = some x from hx] at hb; cases hb; exact ⟨hsq, hfrom.mono hh⟩⟩
      · cases h
    · split at h
      swap
      · cases h
        exact ⟨I1, fun x hx => by
          rw [show s.slots b = some x from hx] at hb; cases hb; exact ⟨hsq, hfrom.mono hh⟩⟩
      rename_i hcond
      obtain ⟨-, hfb, hfree⟩ := hcond
      cases h
      have hfree : s.slots w.free = none := hfree
      have I2 : Inv B ((⟨putAll s.cache st.puts, s.slots, (from_, a'.take k) :: s.heard, l :: s.judged⟩ : State).set b
          (some { sl with child := some w.free })) := by
        refine I1.set ⟨hsl1.ordinary, hsl1.ns, hsl1.sock, hsl1.has, hsl1.seen⟩ ?_ ?_ ?_
        · intro c cs x _ h1 _ h3
          cases h3
          rw [show s.slots w.free = some cs from h1] at hfree; cases hfree
        · intro p ps x _ h1 h2 h3
          exact I1.glue b sl p ps x hb h1 h2 h3
        · intro x _ h2
          exact hfb (Option.some.inj h2)
      refine ⟨I2.set (slotOk_fresh _ _ (by rw [e4]; exact ordinary_of n hty) (fun _ _ h => by cases h)) ?_ ?_ ?_, ?_⟩
      · intro c cs x _ _ _ h3; cases h3
      · intro p ps x _ h2; cases h2
      · intro x h2; cases h2
      · intro x hx
        rw [set_slots, if_neg (Ne.symm hfb), set_same] at hx
        cases hx
        exact ⟨hsq, hfrom.mono hh⟩
  · subst h
    exact ⟨I1, fun x hx => by
      rw [show s.slots b = some x from hx] at hb; cases hb; exact ⟨hsq, hfrom.mono hh⟩⟩

theorem passes_inv {cfg : Cfg} {B : Belief cfg} (hgt : cfg.glueType < 65536 ∧ cfg.glueType ≠ 65394 ∧ cfg.glueType ≠ 65395)
    {b : Nat} {query from_ a0 junk : List UInt8} {count : Nat} (hq : Remote.question a0 count = .ok query) (h520 : a0.length = 520)
    (h12 : 12 ≤ count) (hcount : count ≤ 512) :
    ∀ {n : Nat} {s s' : State} {a : List UInt8} {ws : List (Wire × Int)}, passes cfg b from_ count junk n s a ws = .ok s' →
      Passing B b query from_ s → a.drop 12 = a0.drop 12 → a.length = a0.length →
      (∀ x ∈ s'.heard, B.readable x.2) → [0, 16] ∉ s'.judged → Inv B s'
  | 0, s, s', a, ws, h, P, _, _, _, _ => by cases h; exact P.inv
  | n + 1, s, s', a, ws, h, P, hd, hl, hm, hj => by
    unfold passes at h
    cases hb : s.slots b with
    | none => rw [hb] at h; cases h; exact P.inv
    | some sl =>
    rw [hb] at h
    dsimp only at h
    cases hp : pass cfg s b sl from_ a count (ws.headD default).2 (ws.headD default).1 junk with
    | err => rw [hp] at h; cases h
    | ub => rw [hp] at h; cases h
    | ok x =>
    obtain ⟨s1, a1, go⟩ := x
    rw [hp, Res.ok_bind] at h
    dsimp only at h
    split at h
    · have hg := passes_grows h
      obtain ⟨P1, d1, l1⟩ := pass_inv hgt hp P hb hq hd hl h520 h12 hcount (fun x hx => hm x (hg.heard x hx)) (fun hx => hj (hg.judged _ hx))
      exact passes_inv hgt hq h520 h12 hcount h P1 d1 l1 hm hj
    · cases h
      exact (pass_inv hgt hp P hb hq hd hl h520 h12 hcount hm hj).1.inv

theorem receive_cases {cfg : Cfg} {s s' : State} {b : Nat} {packet junk : List UInt8} {count : Nat} {ws : List (Wire × Int)}
    (h : receive cfg s b packet count ws junk = .ok s') : s' = s ∨ ∃ sl k a, s.slots b = some sl ∧ sl.sock = some k ∧ 12 ≤ count ∧
      count ≤ 512 ∧ a.length = packet.length ∧ Remote.verify ⟨k.id, sl.query⟩ a count = .ok true ∧
      passes cfg b k.list count junk sl.locals s a ws = .ok s' := by
  unfold receive at h
  cases hb : s.slots b with
  | none => rw [hb] at h; cases h; exact .inl rfl
  | some sl =>
  rw [hb] at h
  dsimp only at h
  cases hk : sl.sock with
  | none => rw [hk] at h; cases h; exact .inl rfl
  | some k =>
  rw [hk] at h
  dsimp only at h
  split at h
  · cases h; exact .inl rfl
  cases h1 : rd packet 2 with
  | err => rw [h1] at h; cases h
  | ub => rw [h1] at h; cases h
  | ok f =>
  rw [h1, Res.ok_bind] at h
  cases h2 : wr packet 2 (f ||| 0x80) with
  | err => rw [h2] at h; cases h
  | ub => rw [h2] at h; cases h
  | ok a =>
  rw [h2, Res.ok_bind] at h
  cases h3 : Remote.verify ⟨k.id, sl.query⟩ a count with
  | err => rw [h3] at h; cases h
  | ub => rw [h3] at h; cases h
  | ok v =>
  rw [h3, Res.ok_bind] at h
  split at h
  · cases h; exact .inl rfl
  rename_i hv
  right
  have : v = true := by simpa using hv
  subst this
  exact ⟨sl, k, a, rfl, hk, by omega, by omega, (wr_drop h2 (by omega)).2, h3, h⟩

/-- The name whose aliases the cache has. -/
theorem Inv.alias {cfg : Cfg} {B : Belief cfg} {s : State} (h : Inv B s) {query v : List UInt8}
    (hg : get s.cache (aliasKey query) = some v) : ∃ z t, Asked query z t ∧ B.aliased s.heard z v ∧
      query.drop (query.length - 2) = be16 t := by
  obtain ⟨e, he, hk, hv⟩ := get_mem hg
  obtain ⟨z, t, h1, h2, h3, -, h5, -⟩ := h.cache e he
  have hkey : encName z ++ be16 t = query.take (query.length - 2) ++ be16 65394 := h3.symm.trans hk
  have hl := congrArg List.length hkey
  simp only [List.length_append, be16_length, List.length_take] at hl
  have hz : 1 ≤ (encName z).length := by simp [encName]
  obtain ⟨e1, e2⟩ := List.append_inj hkey (by rw [List.length_take]; omega)
  have ht := be16_inj h2 (by omega) e2
  have hd : (query.drop (query.length - 2)).length = 2 := by rw [List.length_drop]; omega
  obtain ⟨x, y, hxy⟩ : ∃ x y, query.drop (query.length - 2) = [x, y] := by
    match query.drop (query.length - 2), hd with
    | [x, y], _ => exact ⟨x, y, rfl⟩
  have hx := x.toNat_lt
  have hy := y.toNat_lt
  have hbe : be16 (x.toNat * 256 + y.toNat) = [x, y] := by
    unfold be16
    congr 1
    · apply UInt8.toNat_inj.1; simp; omega
    · congr 1; apply UInt8.toNat_inj.1; simp
  refine ⟨z, x.toNat * 256 + y.toNat, ⟨h1, by omega, ?_⟩, by rw [← hv]; exact h5 ht, by rw [hbe, hxy]⟩
  rw [hbe, ← hxy, e1, List.take_append_drop]

theorem join_inv {cfg : Cfg} {B : Belief cfg} {s s' : State} (h : Inv B s) {junk query action v oq : List UInt8}
    (hv : get s.cache oq = some v) (ho : Ordinary oq) (hq : Ordinary query) {q : List (List UInt8)} {t : Nat} (ha : Asked query q t)
    (hal : B.aliased s.heard q action) (hj : finish.join cfg s junk query action v = .ok s') : Inv B s' := by
  unfold finish.join at hj
  split at hj
  · rename_i p hp
    cases hj
    refine h.put ?_
    obtain ⟨e, he, hk, hv'⟩ := get_mem hv
    obtain ⟨z, t', h1, h2, h3, -, -, h6⟩ := h.cache e he
    have h7 := ho _ _ h2 (hk.symm.trans h3)
    have h8 := hq _ _ ha.2.1 ha.2.2
    refine ⟨q, t, ha.1, ha.2.1, ?_, fun h => absurd h h8.2, fun h => absurd h h8.1, fun _ _ => ?_⟩
    · show p.key = _
      rw [makeReply_key hp, Remote.dstr_contents, ha.2.2]
    · exact B.joined hal (h6 h7.2 h7.1) ⟨_, _, _, p, by rw [hv']; exact hp, rfl⟩
  · cases hj; exact h
  · cases hj

theorem finish_same {cfg : Cfg} {s s' : State} {b : Nat} {w : Wire} {junk : List UInt8} (h : finish cfg s b w junk = .ok s') :
    s'.heard = s.heard ∧ s'.judged = s.judged := by
  have hj : ∀ q a v, finish.join cfg s junk q a v = .ok s' → s'.heard = s.heard ∧ s'.judged = s.judged := by
    intro q a v h
    unfold finish.join at h
    split at h
    · cases h; exact ⟨rfl, rfl⟩
    · cases h; exact ⟨rfl, rfl⟩
    · cases h
  unfold finish at h
  split at h
  · cases h; exact ⟨rfl, rfl⟩
  split at h
  · cases h; exact ⟨rfl, rfl⟩
  split at h
  · cases h; exact ⟨rfl, rfl⟩
  · split at h
    · cases h; exact ⟨rfl, rfl⟩
    split at h
    · cases h; exact ⟨rfl, rfl⟩
    rename_i v _ _ _ _ _ _ _ _ _
    cases hf : fromAnswer (Remote.dstr v) (w.tries.headD default).2 with
    | err => rw [hf] at h; cases h
    | ub => rw [hf] at h; cases h
    | ok o =>
      rw [hf, Res.ok_bind] at h
      cases o with
      | none => cases h; exact ⟨rfl, rfl⟩
      | some ip => cases h; exact ⟨rfl, rfl⟩
  · split at h
    · cases h; exact ⟨rfl, rfl⟩
    split at h
    · cases h; exact ⟨rfl, rfl⟩
    exact hj _ _ _ h
  · exact hj _ _ _ h

theorem finish_inv {cfg : Cfg} {B : Belief cfg} {s s' : State} (H : Inv B s) {b : Nat} {w : Wire} {junk : List UInt8}
    (h : finish cfg s b w junk = .ok s') : Inv B s' := by
  unfold finish at h
  cases hb : s.slots b with
  | none => rw [hb] at h; cases h; exact H
  | some sl =>
  rw [hb] at h
  dsimp only at h
  have hsl := H.slots b sl hb
  cases hv : get s.cache sl.query with
  | none => rw [hv] at h; cases h; exact H
  | some v =>
  rw [hv] at h
  dsimp only at h
  cases hr : sl.role with
  | client => rw [hr] at h; cases h; exact H
  | glue parent list =>
    rw [hr] at h
    dsimp only at h
    cases hp : s.slots parent with
    | none => rw [hp] at h; cases h; exact H
    | some p =>
    rw [hp] at h
    dsimp only at h
    split at h
    · cases h; exact H
    rename_i hch
    have hch : p.child = some b := by simpa using hch
    have hpl := H.slots parent p hp
    have hG := H.glue b sl parent p list hb hr hp hch
    cases hf : fromAnswer (Remote.dstr v) (w.tries.headD default).2 with
    | err => rw [hf] at h; cases h
    | ub => rw [hf] at h; cases h
    | ok o =>
    rw [hf, Res.ok_bind] at h
    cases o with
    | none => cases h; exact H
    | some ip =>
      cases h
      split
      swap
      · exact H.update hp hpl rfl rfl (fun _ h => h)
      exact H.update hp ⟨hpl.ordinary, hpl.ns, fun k hk => (by cases hk; exact hG.1), fun h => absurd h hG.2, hpl.seen⟩ rfl rfl
        (fun _ h => h)
  | link parent =>
    rw [hr] at h
    dsimp only at h
    cases hp : s.slots parent with
    | none => rw [hp] at h; cases h; exact H
    | some p =>
    rw [hp] at h
    dsimp only at h
    cases ha : get s.cache (aliasKey p.query) with
    | none => rw [ha] at h; cases h; exact H
    | some action =>
    rw [ha] at h
    obtain ⟨z, t, g1, g2, -⟩ := H.alias ha
    exact join_inv H hv hsl.ordinary (H.slots parent p hp).ordinary g1 g2 h
  | seen oq action =>
    rw [hr] at h
    obtain ⟨g1, q, t, g2, g3⟩ := hsl.seen oq action hr
    exact join_inv H hv hsl.ordinary g1 g2 g3 h

/-- What is needed of an event: questions are not for one of the types that Deadwood has for itself, and packets are
received in an array of 520 bytes. -/
def Ev.Ok : Ev → Prop
  | .start _ q => Ordinary q
  | .seen _ q => Ordinary q
  | .receive _ p _ _ => p.length = 520
  | _ => True

theorem step_grows {cfg : Cfg} {s s' : State} {e : Ev} {junk : List UInt8} (h : step cfg junk s e = .ok s') : Grows s s' := by
  cases e with
  | start b q =>
    simp only [step] at h
    split at h <;> (cases h; exact .of_eq ⟨rfl, rfl⟩)
  | seen b q =>
    simp only [step] at h
    split at h
    swap
    · cases h; exact .refl s
    split at h
    · cases h; exact .refl s
    rename_i action _
    cases hl : leadsTo action with
    | err => rw [hl] at h; cases h
    | ub => rw [hl] at h; cases h
    | ok o =>
    cases o with
    | none => rw [hl, Res.ok_bind] at h; cases h; exact .refl s
    | some n => rw [hl, Res.ok_bind] at h; cases h; exact .of_eq ⟨rfl, rfl⟩
  | merge b =>
    simp only [step] at h
    split at h <;> (cases h; exact .of_eq ⟨rfl, rfl⟩)
  | send b w =>
    simp only [step] at h
    split at h
    · cases h; exact .refl s
    · have := connect_same h
      exact .of_eq this
  | receive b p n ws =>
    rcases receive_cases h with rfl | ⟨sl, k, a, -, -, -, -, -, -, h⟩
    · exact .refl _
    · exact passes_grows h
  | finish b w => exact .of_eq (finish_same h)
  | drop b => cases h; exact .of_eq ⟨rfl, rfl⟩
  | lapse k => cases h; exact .of_eq ⟨rfl, rfl⟩

theorem step_inv {cfg : Cfg} {B : Belief cfg} (hgt : cfg.glueType < 65536 ∧ cfg.glueType ≠ 65394 ∧ cfg.glueType ≠ 65395)
    {s s' : State} {e : Ev} (he : e.Ok) {junk : List UInt8} (H : Inv B s) (h : step cfg junk s e = .ok s')
    (hm : ∀ x ∈ s'.heard, B.readable x.2) (hj : [0, 16] ∉ s'.judged) : Inv B s' := by
  have hnew : ∀ (b : Nat) (sl : Slot), sl.child = none → (∀ p l, sl.role ≠ .glue p l) → SlotOk B s.heard sl →
      Inv B (s.set b (some sl)) := by
    intro b sl h1 h2 h3
    refine H.set h3 ?_ ?_ ?_
    · intro c cs x _ _ _ h; rw [h1] at h; cases h
    · intro p ps x _ h; exact absurd h (h2 _ _)
    · intro x h; exact absurd h (h2 _ _)
  cases e with
  | start b q =>
    simp only [step] at h
    split at h
    · cases h
      exact hnew b _ rfl (by intro p l h; cases h) (slotOk_fresh _ _ he (by intro _ _ h; cases h))
    · cases h; exact H
  | seen b q =>
    simp only [step] at h
    split at h
    swap
    · cases h; exact H
    split at h
    · cases h; exact H
    rename_i action hact
    cases hl : leadsTo action with
    | err => rw [hl] at h; cases h
    | ub => rw [hl] at h; cases h
    | ok o =>
    cases o with
    | none => rw [hl, Res.ok_bind] at h; cases h; exact H
    | some n =>
      rw [hl, Res.ok_bind] at h
      cases h
      obtain ⟨z, t, g1, g2, g3⟩ := H.alias hact
      have ht := he _ _ g1.2.1 g1.2.2
      refine hnew b _ rfl (by intro p l h; cases h) (slotOk_fresh _ _ ?_ ?_)
      · rw [g3]; exact ordinary_of n ⟨g1.2.1, ht⟩
      · intro oq ac h
        cases h
        exact ⟨he, z, t, g1, g2⟩
  | merge b =>
    simp only [step] at h
    split at h
    · cases h; exact H
    · rename_i sl hb
      cases h
      have hsl := H.slots b sl hb
      exact H.update hb ⟨hsl.ordinary, hsl.ns, hsl.sock, hsl.has, hsl.seen⟩ rfl rfl (fun _ h => h)
  | send b w =>
    simp only [step] at h
    split at h
    · cases h; exact H
    · rename_i sl hb
      have hsl := H.slots b sl hb
      have I := H.update hb (sl' := { sl with sock := none })
        ⟨hsl.ordinary, hsl.ns, fun _ hk => (by cases hk), fun _ => rfl, hsl.seen⟩ rfl rfl (fun _ h => h)
      exact (connect_inv I hgt h).1
  | receive b p n ws =>
    rcases receive_cases h with rfl | ⟨sl, k, a, hb, hk, h12, h512, hlen, hv, h⟩
    · exact H
    · have h520 : p.length = 520 := he
      have hq := verify_question (by omega) (by omega) h12 hv
      refine passes_inv hgt hq (by omega) h12 h512 h ⟨H, ?_⟩ rfl rfl hm hj
      intro x hx
      rw [hb] at hx
      cases hx
      exact ⟨rfl, (H.slots b sl hb).sock k hk⟩
  | finish b w => exact finish_inv H h
  | drop b => cases h; exact H.drop b
  | lapse key =>
    cases h
    exact ⟨fun e he => H.cache e (List.mem_of_mem_filter he), H.slots, H.glue⟩

theorem run_grows {cfg : Cfg} {junk : List UInt8} : ∀ {evs : List Ev} {s s' : State}, run cfg junk s evs = .ok s' → Grows s s'
  | [], s, s', h => by cases h; exact .refl s
  | e :: es, s, s', h => by
    unfold run at h
    cases h1 : step cfg junk s e with
    | err => rw [h1] at h; cases h
    | ub => rw [h1] at h; cases h
    | ok s1 =>
      rw [h1] at h
      exact (step_grows h1).trans (run_grows (show run cfg junk s1 es = .ok s' from h))

theorem run_inv {cfg : Cfg} {B : Belief cfg} (hgt : cfg.glueType < 65536 ∧ cfg.glueType ≠ 65394 ∧ cfg.glueType ≠ 65395) {junk : List UInt8} :
    ∀ {evs : List Ev} {s s' : State}, (∀ e ∈ evs, e.Ok) → Inv B s → run cfg junk s evs = .ok s' →
      (∀ x ∈ s'.heard, B.readable x.2) → [0, 16] ∉ s'.judged → Inv B s'
  | [], s, s', _, H, h, _, _ => by cases h; exact H
  | e :: es, s, s', he, H, h, hm, hj => by
    unfold run at h
    cases h1 : step cfg junk s e with
    | err => rw [h1] at h; cases h
    | ub => rw [h1] at h; cases h
    | ok s1 =>
      rw [h1] at h
      have h : run cfg junk s1 es = .ok s' := h
      have hg := run_grows h
      exact run_inv hgt (fun x hx => he x (by simp [hx]))
        (step_inv hgt (he e (by simp)) H h1 (fun x hx => hm x (hg.heard x hx)) (fun hx => hj (hg.judged _ hx))) h hm hj

/-- Lists that are configured begin with the name of their zone. -/
def ConfOk (conf : Conf) : Prop :=
  ∀ c ∈ conf, Spec.NameOk c.1 ∧ (∃ x, c.2 = encName c.1 ++ x) ∧ c.2.length < 134217727

theorem init_inv {cfg : Cfg} {B : Belief cfg} {conf : Conf} (h : ConfOk conf) (hB : ∀ {z l}, (z, l) ∈ conf → B.trusted [] z l) :
    Inv B (State.init conf) := by
  refine ⟨?_, fun _ _ h => (by cases h), fun _ _ _ _ _ h => (by cases h)⟩
  intro e he
  obtain ⟨c, hc, rfl⟩ := List.mem_map.1 he
  obtain ⟨h1, h2, h3⟩ := h c hc
  exact ⟨c.1, 65395, h1, by omega, rfl, fun _ => .inr ⟨h1, hB hc, h2, h3⟩, fun h => (by omega), fun h => absurd rfl h⟩

end Trust
end Dw
