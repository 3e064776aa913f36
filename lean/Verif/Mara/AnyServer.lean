import Verif.Mara.AnyStore
import Verif.Mara.ServerAll
/-!
# Lemmas: the authoritative server and any packet at all
-/

namespace Mara
namespace Server

open Dw (Res)
open Spec
open Big (Key enc base Cell)
open Lookup (Usual Odd Idle AtRoot Only Stores)

/-- What becomes of a packet: either it does not matter what the server has, or something is looked for. -/
theorem packet_shape {raw : Js} (hs : Js.Ok raw) {cfg : Lookup.Cfg} (ha : cfg.rejectAaaa = false) (hp : cfg.rejectPtr = false) :
    (∃ out : Lookup.Out (List UInt8), (∀ h, Lookup.procQuery cfg h raw = .ok out) ∧ Idle out) ∨
    ∃ b x y id rd, ((∃ ls, LabelsOk ls ∧ b = encName ls) ∨ Odd b) ∧ b.length ≤ 253 ∧ question raw = b ++ [x, y] ∧ 2 ≤ raw.count ∧
      ∀ h : Lookup.Hash (List UInt8), Lookup.procQuery cfg h raw = .ok (Lookup.servFail cfg (Lookup.search cfg h id rd (b ++ [x, y]))) := by
  have hb := hs.block
  have hfit := hs.fits
  have hq : ∀ c e, Idle (Lookup.quiet cfg (.error c e : Lookup.Out (List UInt8))) := by
    intro c e
    unfold Lookup.quiet
    split <;> trivial
  have rdok : ∀ i, i < raw.max + 3 → ∃ x, Js.rd raw.buf i = .ok x := by
    intro i hi
    unfold Js.rd
    rw [List.getElem?_eq_getElem (by omega)]
    exact ⟨_, rfl⟩
  unfold Lookup.procQuery
  simp only [show (!raw.sane) = false by simp [Js.sane]; omega, Bool.false_eq_true, if_false]
  by_cases h14 : raw.max < 14
  · simp only [h14, if_true]
    exact .inl ⟨_, fun _ => rfl, trivial⟩
  simp only [h14, if_false]
  obtain ⟨x0, e0⟩ := rdok 0 (by omega)
  obtain ⟨x1, e1⟩ := rdok 1 (by omega)
  obtain ⟨x2, e2⟩ := rdok 2 (by omega)
  obtain ⟨x4, e4⟩ := rdok 4 (by omega)
  obtain ⟨x5, e5⟩ := rdok 5 (by omega)
  simp only [e0, e1, e2, e4, e5, Res.ok_bind]
  by_cases c1 : x2 &&& 0x80 ≠ 0
  · simp only [c1, if_true, ne_eq, not_false_eq_true]
    exact .inl ⟨_, fun _ => rfl, trivial⟩
  simp only [c1, if_false]
  by_cases c2 : x4.toNat * 256 + x5.toNat ≠ 1
  · simp only [c2, if_true, ne_eq, not_false_eq_true]
    exact .inl ⟨_, fun _ => rfl, hq _ _⟩
  simp only [c2, if_false]
  by_cases c3 : raw.count < 14
  · simp only [c3, if_true]
    exact .inl ⟨_, fun _ => rfl, hq _ _⟩
  simp only [c3, if_false]
  have hdl := Lookup.dlabelLength_list hs 12 (by omega)
  cases hk : Lookup.dlabel raw.contents 12 256 0 with
  | none =>
    rw [hk] at hdl
    simp only [hdl]
    exact .inl ⟨_, fun _ => rfl, hq _ _⟩
  | some k =>
    rw [hk] at hdl
    simp only [hdl]
    by_cases c4 : k > 255
    · simp only [c4, if_true]
      exact .inl ⟨_, fun _ => rfl, hq _ _⟩
    simp only [c4, if_false]
    by_cases c5 : raw.count < 16 + k
    · simp only [c5, if_true]
      exact .inl ⟨_, fun _ => rfl, hq _ _⟩
    simp only [c5, if_false]
    have hlen : raw.contents.length = raw.count := by
      unfold Js.contents; rw [List.length_take]; omega
    cases hsub : L.substr raw.contents 12 (k + 2) 256 with
    | none =>
      exact .inl ⟨_, fun _ => rfl, hq _ _⟩
    | some orig =>
      simp only
      unfold L.substr at hsub
      split at hsub
      · rename_i hc
        injection hsub with hsub
        by_cases c6 : x2 &&& 0x78 ≠ 0
        · simp only [c6, if_true, ne_eq, not_false_eq_true]
          exact .inl ⟨_, fun _ => rfl, trivial⟩
        simp only [c6, if_false]
        obtain ⟨y0, f0⟩ := rdok (k + 14) (by omega)
        obtain ⟨y1, f1⟩ := rdok (k + 15) (by omega)
        simp only [f0, f1, Res.ok_bind]
        by_cases c7 : y0 ≠ 0 ∧ y1 ≠ 1
        · simp only [c7, if_true, ne_eq, not_false_eq_true, and_self]
          exact .inl ⟨_, fun _ => rfl, hq _ _⟩
        simp only [c7, if_false]
        cases hrt : Lookup.getRtype orig with
        | none => exact .inl ⟨_, fun _ => rfl, hq _ _⟩
        | some t =>
          simp only [ha, hp, Bool.false_eq_true, and_false, if_false]
          by_cases c8 : t = 253 ∨ t = 254 ∨ t = 250
          · simp only [c8, if_true]
            exact .inl ⟨_, fun _ => rfl, hq _ _⟩
          simp only [c8, if_false]
          by_cases c9 : t = 251 ∨ t = 252
          · simp only [c9, if_true]
            exact .inl ⟨_, fun _ => rfl, hq _ _⟩
          simp only [c9, if_false]
          obtain ⟨hk0, hrd⟩ := Lookup.dlabel_reads raw.contents 12 256 0 k hk (by omega) (by omega)
          have hol : orig.length = k + 2 := by
            rw [← hsub, List.length_take, List.length_drop]
            omega
          obtain ⟨b, x, y, rfl⟩ := Big.split_two (l := orig) (by omega)
          have hbk : b.length = k := by simpa using hol
          have hbe : b = (raw.contents.drop (0 + 12)).take (k - 0) := by
            have h1 := congrArg (List.take k) hsub
            rw [List.take_take, ← hbk, List.take_left, Nat.min_eq_left (by omega)] at h1
            rw [← h1]
            simp [hbk]
          rw [← hbe] at hrd
          refine .inr ⟨b, x, y, _, _, hrd, by omega, ?_, by omega, fun _ => rfl⟩
          unfold question
          rw [hdl]
          exact hsub
      · cases hsub

/-- What the server can have found in the records it was given. -/
inductive Bound (gs : List Given) (p : Packet) : Lookup.Out (List UInt8) → Prop
  | idle {o} : Idle o → Bound gs p o
  | all : (question p.raw).length ≤ 255 → Bound gs p .any
  | success {k n u} (f : Bool) : Reads p k → gs.any (Given.at? false n u) = true → Bound gs p (.success (keyOf (false, n, u)) f)
  | star {k n u} : Reads p k → gs.any (Given.at? true n u) = true → (u = k.type ∨ u = 5) →
      Bound gs p (.star (keyOf (true, n, u)) (encName k.name ++ be16 u) 0)
  | negative {k n c} : Reads p k → gs.any (Given.at? false n 6) = true → c ≤ 15 → Bound gs p (.negative (keyOf (false, n, 6)) c)

theorem Bound.servFail {gs : List Given} {p : Packet} {cfg : Lookup.Cfg} {o : Lookup.Out (List UInt8)} (h : Bound gs p o) : Bound gs p (Lookup.servFail cfg o) := by
  unfold Lookup.servFail
  split
  · refine .idle ?_
    unfold Lookup.quiet
    split <;> trivial
  · exact h

theorem places_rr {gs : List Given} {n : Name} {u : Nat} {a : Bool} {r : List UInt8} (h : (mapZone keyOf (Given.places gs)).rr n u = some (a, r)) :
    r = keyOf (false, n, u) ∧ gs.any (Given.at? false n u) = true := by
  unfold mapZone Given.places at h
  dsimp only at h
  split at h
  · rename_i hc
    simp only [Option.map_some, Option.some.injEq, Prod.mk.injEq] at h
    exact ⟨h.2.symm, hc⟩
  · cases h

/-- Whatever the packet, the server only goes for records it was given. -/
theorem packet_bound {gs : List Given} {cfg : Lookup.Cfg} (hu : Usual cfg) (hegg : ∀ l, cfg.egg l = none) (h8 : Rfc8482 cfg)
    (ha : cfg.rejectAaaa = false) (hpt : cfg.rejectPtr = false) {h : Lookup.Hash (List UInt8)} (ho : Only h) (hs : Stores h (mapZone keyOf (Given.places gs)))
    {p : Packet} (hp : Js.Ok p.raw) : ∃ out, Lookup.procQuery cfg h p.raw = .ok out ∧ Bound gs p out := by
  rcases packet_shape hp ha hpt with ⟨out, h1, h2⟩ | ⟨b, x, y, id, rd, hb, hlen, hq, hc, h1⟩
  · exact ⟨out, h1 h, .idle h2⟩
  refine ⟨_, h1 h, Bound.servFail ?_⟩
  have hql : (question p.raw).length ≤ 255 := by
    rw [hq]
    simp
    omega
  rcases hb with ⟨ls, hls, rfl⟩ | hod
  · have hx := x.toNat_lt
    have hy := y.toNat_lt
    rw [← Big.u16_bytes] at hq ⊢
    generalize ht : x.toNat * 256 + y.toNat = t at hq ⊢
    have htl : t < 65536 := by omega
    have hd := hu.dos
    have rk : Reads p ⟨idOf p.raw, rdOf p.raw, ls, t, p.long⟩ := ⟨⟨rfl, rfl, hq, hc, hls, by show (encName ls).length ≤ 255; omega⟩, htl, rfl⟩
    show Bound gs p (Lookup.search cfg h id rd (Lookup.key ls t))
    by_cases h255 : t = 255
    · have e : Lookup.search cfg h id rd (Lookup.key ls t) = .any := by
        unfold Lookup.search
        rw [if_neg (by omega)]
        simp only
        rw [if_neg (by omega), if_pos ⟨by omega, by rw [Lookup.getRtype_key ls t htl, h255]⟩, h8]
      rw [e]
      exact .all hql
    by_cases hroot : ls = []
    · subst hroot
      rcases Lookup.search_root ho hs hu hegg id rd htl h255 with hi | ⟨u, a, r, f, h2, h3⟩ | ⟨a, r, c, h2, hc3, h3⟩
      · exact .idle hi
      · obtain ⟨rfl, hg⟩ := places_rr h2
        rw [h3]
        exact .success f rk hg
      · obtain ⟨rfl, hg⟩ := places_rr h2
        rw [h3]
        exact .negative rk hg (by omega)
    by_cases hdd : cfg.noFingerprint = true ∨ t ≠ 1 ∨ dottedQuad ls = none
    · have hse := Lookup.search_spec hs hu id rd ⟨hls, hlen⟩ hroot htl h255 hdd (.inr (hegg _))
      rw [hse, mapZone_reply]
      have hpl := places_reply gs (lowName ls) t
      cases hrep : (Given.places gs).reply (lowName ls) t with
      | records v =>
        rw [hrep] at hpl
        obtain ⟨u, _, rfl, hany⟩ := hpl
        exact .success true rk hany
      | referral v =>
        rw [hrep] at hpl
        obtain ⟨m, rfl, hany, _⟩ := hpl
        exact .success false rk hany
      | wildcard v u =>
        rw [hrep] at hpl
        obtain ⟨m, rfl, hu5, hany⟩ := hpl
        exact .star rk hany hu5
      | noData v =>
        rw [hrep] at hpl
        obtain ⟨m, rfl, hany⟩ := hpl
        exact .negative rk hany (by omega)
      | nxDomain v =>
        rw [hrep] at hpl
        obtain ⟨m, rfl, hany⟩ := hpl
        exact .negative rk hany (by omega)
      | refused => exact .idle trivial
      | failure => exact .idle trivial
    · simp only [not_or, not_not] at hdd
      obtain ⟨hfp, ht1, hd4⟩ := hdd
      rw [ht1] at rk ⊢
      rcases Lookup.search_quad hs hu hegg id rd hls (by simpa using hfp) hd4 with hi | ⟨u, a, r, f, h2, h3⟩
      · exact .idle hi
      · obtain ⟨rfl, hg⟩ := places_rr h2
        rw [h3]
        exact .success f rk hg
  · rcases Lookup.search_odd ho hu hegg h8 id rd hod x y with e | e
    · rw [e]
      exact .all hql
    · exact .idle e

theorem rfc8482_some (id : Nat) {q : List UInt8} (hq : q.length ≤ 255) (rd : Bool) : ∃ r, rfc8482 id q rd = some r := by
  have hl : ∀ {out l : List UInt8}, out.length + l.length < 1024 → Reply.append 1024 out l = some (out ++ l) := by
    intro out l h
    unfold Reply.append
    rw [if_neg (by omega)]
  unfold rfc8482
  have hh := Reply.makeHdr_length { id := id, qr := true, aa := true, rd := rd, qd := 1, an := 1 }
  dsimp only
  rw [hl (by omega)]
  have hp : ∀ n, (Reply.put16 n).length = 2 := fun _ => rfl
  have h1 : ([0] : List UInt8).length = 1 := rfl
  simp only [Option.bind_eq_bind, Option.bind_some]
  iterate 11 rw [hl (by simp only [List.length_append, hp, hh]; omega), Option.bind_some]
  rw [hl (by simp only [List.length_append, hp, hh, h1]; omega)]
  exact ⟨_, rfl⟩

section
variable {W : World} {v6 : Bool} {o : Order} {s0 s : Srv} {gs : List Given}

/-- The orders after one packet. -/
def Moved (lim : Limits) (o o' : Order) : Prop := o' = o ∨ ∃ n u t, o' = o.next lim n u t

/-- Whatever the packet, the server is ready for the next one. -/
theorem Ready.any (st : Stands W v6 s0.heap s0.dict) (fi : Fits W gs) (hl : Big.Loadable gs) (ho : Only s0.hash)
    (hs : Stores s0.hash (mapZone keyOf (Given.places gs))) (r : Ready W v6 s0 o s) {cfg : Cfg} (hu : Usual cfg.look)
    (hegg : ∀ l, cfg.look.egg l = none) (h8 : Rfc8482 cfg.look) (ha : cfg.look.rejectAaaa = false) (hpt : cfg.look.rejectPtr = false)
    (hcfg : cfg.reply.maxTotal ≤ 20) (hv : cfg.reply.v6 = v6) {p : Packet} (hp : Js.Ok p.raw) :
    ∃ c s' o', answer cfg s p.raw p.long = .ok (c, s') ∧ Ready W v6 s0 o' s' ∧ Moved (limits cfg.reply) o o' := by
  obtain ⟨out, h1, hb⟩ := packet_bound hu hegg h8 ha hpt ho hs hp
  rw [← r.hash] at h1
  cases hb with
  | idle hi =>
    unfold answer
    rw [h1, Res.ok_bind]
    cases out with
    | none => exact ⟨_, _, o, rfl, r, .inl rfl⟩
    | error c e =>
      simp only
      split
      · exact ⟨_, _, o, rfl, r, .inl rfl⟩
      · exact ⟨_, _, o, rfl, r, .inl rfl⟩
    | ddip ip => exact ⟨_, _, o, rfl, r, .inl rfl⟩
    | _ => exact hi.elim
  | all hq =>
    obtain ⟨c, hc⟩ := rfc8482_some (idOf p.raw) hq (rdOf p.raw)
    unfold answer
    rw [h1, Res.ok_bind]
    simp only [hc]
    exact ⟨_, _, o, rfl, r, .inl rfl⟩
  | success f rk hg =>
    have hn := given_labels hl hg
    obtain ⟨a, b, an, ns, ar, c, s', o', h2, h3, h4, h5⟩ := r.success st fi hcfg hv rk hn ((fi.own false _ _ hn).2 hg) f h1
    refine ⟨some c, s', o', h3, h4, ?_⟩
    rcases h5 with ⟨_, _, h | h⟩ | ⟨_, _, h⟩
    · exact .inl h
    · exact .inr ⟨_, _, _, h⟩
    · exact .inr ⟨_, _, _, h⟩
  | star rk hg hu5 =>
    have hn := given_labels hl hg
    obtain ⟨c, h2, _⟩ := r.starred st fi rk hn ((fi.own true _ _ hn).2 hg) hu5 h1
    exact ⟨some c, s, o, h2, r, .inl rfl⟩
  | negative rk hg hc =>
    have hn := given_labels hl hg
    obtain ⟨c, i, h2, _⟩ := r.denied st fi rk hn ((fi.own false _ 6 hn).2 hg) hc h1
    exact ⟨some c, s, o, h2, r, .inl rfl⟩

end

end Server
end Mara
