import Verif.Deadwood.AnyRefer
import Verif.Deadwood.IncomingEq
/-!
# Lemmas: any packet at all
-/

namespace Dw
namespace Dissect
open DwStr Spec

/-- A question Deadwood may have asked: a name without control characters and a type. -/
structure Asked (query : DwStr) (qs : List (List UInt8)) (qtype : Nat) : Prop where
  usable : Usable query
  ok : LabelsOk qs
  noCtl : NoCtl qs
  len : (encName qs).length ≤ 256
  type : qtype < 65536
  contents : query.contents = encName qs ++ be16 qtype

theorem Asked.plain {query : DwStr} {qs : List (List UInt8)} {qtype : Nat} (h : Asked query qs qtype) :
    PlainAt query.mem 0 qs := by
  apply PlainAt.of_encName h.ok
  exact bytesAt_mid (s := query) (pre := []) (l := encName qs) (post := be16 qtype) (by rw [h.contents]; simp)

theorem Asked.qtype {query : DwStr} {qs : List (List UInt8)} {qtype : Nat} (h : Asked query qs qtype) :
    query.fetchU16 (-1) = .ok qtype := by
  have hl : query.contents.length = (encName qs).length + 2 := by rw [h.contents]; simp [be16_length]
  have hb := bytesAt_mid (s := query) (pre := encName qs) (l := be16 qtype) (post := []) (by rw [h.contents]; simp)
  have h1 := fetchU16_in h.usable (encName qs).length (by omega)
  have h2 := fetchU16_at h.usable hb h.type
  rw [h1.1] at h2
  have := h1.2
  rw [h2] at this
  rw [← this]
  congr 1
  omega

/-- What a name of an accepted record is: one the servers asked may delegate. -/
def Deleg (b : DwStr) (qs z : List (List UInt8)) : Prop := ∀ bs, PlainAt b.mem 0 bs → MayDelegate bs qs z

theorem inBailiwick_named {inp b query : DwStr} (hi : Usable inp) (hb : Usable b) (he : Ends inp) {o : Nat}
    {qs : List (List UInt8)} {qtype : Nat} (hq : Asked query qs qtype) (h : inBailiwick inp o b (some query) = .ok true) :
    Named inp (Deleg b qs) o := by
  obtain ⟨ho, ls, rest, h1, h2, h3, m, ms', h4, h5⟩ := inBailiwick_found hi hq.usable he hq.plain hq.noCtl h
  refine ⟨ls, rest, h1, h2, h3, fun bs hbs => ⟨?_, ?_⟩⟩
  · have hp : PlainAt inp.mem o ls := by
      apply PlainAt.of_encName h2
      have hcl := hi.clen
      have := bytesAt_mid (s := inp) (pre := inp.contents.take o) (l := encName ls) (post := rest)
        (by rw [List.append_assoc, ← h1, List.take_append_drop])
      rw [List.length_take, Nat.min_eq_left (by omega)] at this
      exact this
    have ht : topLoop inp b 1024 o = .ok true := by
      unfold inBailiwick at h
      simp only at h
      cases hbq : bailiwickQuery inp o query with
      | ub => rw [hbq] at h; cases h
      | err => rw [hbq] at h; cases h
      | ok r =>
      rw [hbq] at h
      simp only [Res.ok_bind] at h
      cases r with
      | false => cases h
      | true =>
        simp only [Bool.not_true, Bool.false_eq_true, if_false] at h
        unfold bailiwickTop at h
        rw [if_neg (by omega)] at h
        exact h
    rw [topLoop_exact hi hb hbs 1024 (by omega) hp] at ht
    have : decide (Under ls bs ∧ cost bs < 260) = true := by injection ht
    exact (of_decide_eq_true this).1
  · unfold Below
    unfold SameName at h5
    rw [← h4, List.map_append, h5]
    exact List.suffix_append _ _

theorem details_any {inp : DwStr} (hi : Usable inp) (junk : List UInt8) : Fine (details inp junk) fun v => AnyView inp v.look ∧
    v.ar.length < 65536 := by
  unfold details
  refine (makeDnsStr_any hi junk).bind fun look hl => ?_
  obtain ⟨an, e1, -⟩ := marks_any hi look.an hl.an
  obtain ⟨ns, e2, -⟩ := marks_any hi look.ns hl.ns
  obtain ⟨ar, e3, h3⟩ := marks_any hi look.ar hl.ar
  rw [e1, e2, e3]
  simp only [Res.ok_bind]
  exact .ok ⟨hl, by have := hl.arLen; simp only; omega⟩

theorem checkAnswers_any {inp query b : DwStr} (hi : Usable inp) (hq : Usable query) (hb : Usable b) {v : View}
    (hv : Small v.look.an) : Fine (checkAnswers inp query b v) fun w => w.look = v.look ∧ w.ar = v.ar := by
  unfold checkAnswers
  refine (show Fine (query.fetchU16 (-1)) (· < 65536) from fetchU16_safe hq _ (by omega)).bind fun t _ => ?_
  have hz : ∀ c ∈ v.look.an.zip v.an, c.1.2 < 65536 := fun c hc => (zip_small hv v.an c hc).2
  split
  · obtain ⟨l, e⟩ := anyLoop_any hi hq v.look.an _ hz 0 0 true
    rw [e]; exact .ok ⟨rfl, rfl⟩
  · obtain ⟨l, e⟩ := answerLoop_any hi hq hb t v.look.an _ hz 0 true 0
    rw [e]; exact .ok ⟨rfl, rfl⟩

theorem cleanup_any (v : View) : (cleanup (noOthers v)).look = v.look ∧ (cleanup (noOthers v)).ar.length = v.ar.length ∧
    (∀ m ∈ (cleanup (noOthers v)).ns, m ≠ 32) ∧ ∀ m ∈ (cleanup (noOthers v)).ar, ¬ isGlue m := by
  have h1 : (noOthers v).look = v.look ∧ (noOthers v).ar.length = v.ar.length := by
    unfold noOthers
    split <;> simp
  refine ⟨h1.1, by simp [cleanup, h1.2], fun m hm => ?_, fun m hm => ?_⟩
  · obtain ⟨t, -, rfl⟩ := List.mem_map.1 hm
    split <;> omega
  · obtain ⟨t, -, rfl⟩ := List.mem_map.1 hm
    unfold isGlue
    split <;> omega

theorem answerKind_any {inp query : DwStr} (hi : Usable inp) (hq : Usable query) {v : View} (hv : Small v.look.ar) :
    Fine (answerKind inp query v) fun r => r.2.look = v.look ∧ (r.1 = 16 → r.2 = v) ∧ (r.1 = 17 → 0 < v.look.an.length) := by
  unfold answerKind
  refine (show Fine (query.fetchU16 (-1)) (· < 65536) from fetchU16_safe hq _ (by omega)).bind fun t _ => ?_
  split
  · rename_i k hk
    refine .ok ⟨rfl, fun _ => rfl, fun _ => ?_⟩
    split at hk
    · assumption
    · cases hk
  · simp only
    split
    · exact .ok ⟨rfl, by simp, by simp⟩
    split
    · obtain ⟨r, e⟩ := arFind_any hi hq t v.look.ar hv 0
      rw [e, Res.ok_bind]
      cases r with
      | none => exact .ok ⟨rfl, fun _ => rfl, by simp⟩
      | some i => exact .ok ⟨rfl, by simp, by simp⟩
    · exact .ok ⟨rfl, by simp, by simp⟩

theorem cacheString_any {v : View} {inp : DwStr} (hv : AnyView inp v.look) (hsz : Short v.look.packet) {kind : Nat}
    (h17 : kind = 17 → 0 < v.look.an.length) (junk : List UInt8) {T : List UInt8 → Prop}
    (h16 : kind = 16 → Fine (nsRefer v junk) (Kept T)) : Fine (cacheString v kind junk) (Kept T) := by
  unfold cacheString
  obtain ⟨x, e⟩ := peek_block hv.packet (i := v.look.packet.len - 1) (by omega)
  rw [e, Res.ok_bind]
  simp only
  obtain ⟨k, hk, hk1, hk2⟩ : ∃ k, (if x = 1 ∧ kind = 2 then 1 else kind) = k ∧ (k = 17 → kind = 17) ∧ (k = 16 → kind = 16) := by
    refine ⟨_, rfl, ?_, ?_⟩ <;> (split <;> omega)
  rw [hk]
  by_cases h1 : x ≠ 0 ∧ x ≠ 1
  · rw [if_pos h1]; exact .err
  rw [if_neg h1]
  by_cases h2 : k = 17
  · rw [if_pos h2]
    exact cnameRefer_any hv.packet hsz (h17 (hk1 h2)) hv.anLen junk T
  rw [if_neg h2]
  by_cases h3 : k = 16
  · rw [if_pos h3]
    exact h16 (hk2 h3)
  rw [if_neg h3]
  by_cases h4 : k = 0 ∨ k = 1 ∨ k = 2
  · rw [if_pos h4]
    refine remake_any hv.packet hsz ?_ junk T
    rcases h4 with h | h | h <;> rw [h] <;> decide
  · rw [if_neg h4]; exact .err

theorem dissect_any {inp query b : DwStr} {qs : List (List UInt8)} {qtype : Nat} (hi : Usable inp) (hsz : Short inp) (hq : Asked query qs qtype)
    (hb : Usable b) (junk : List UInt8) :
    Fine (dissect inp query b junk) (Kept (Told (∃ n, inp.fetchU16 ((inp.len : Int) - 1 - 4) = .ok n ∧ n ≤ 15) (Deleg b qs))) := by
  unfold dissect
  refine (show Fine (query.fetchU16 (-1)) (· < 65536) from fetchU16_safe hq.usable _ (by omega)).bind fun _ _ => ?_
  refine (details_any hi junk).bind fun v hv => ?_
  refine (checkAnswers_any hi hq.usable hb hv.1.an).bind fun w hw => ?_
  obtain ⟨c1, c2, c3, c4⟩ := cleanup_any w
  simp only
  generalize cleanup (noOthers w) = u at c1 c2 c3 c4
  have hu : AnyView inp u.look := by rw [c1, hw.1]; exact hv.1
  have hsz' : Short u.look.packet := by
    unfold Short at hsz ⊢
    rw [← hu.packet.clen, hu.same, hi.clen]
    exact hsz
  have hends : Ends u.look.packet := by
    obtain ⟨x, k, h1, h2⟩ := hu.ends
    exact ⟨x, k, by rw [hu.same, h1], h2⟩
  refine (answerKind_any hi hq.usable hu.ar).bind fun r hr => ?_
  obtain ⟨kind, y⟩ := r
  obtain ⟨r1, r2, r3⟩ := hr
  simp only at r1 r2 r3 ⊢
  split
  · exact answerInAr_any hi hsz y junk _
  · split
    · rename_i h16
      obtain rfl := r2 h16
      unfold checkBailiwick linkNs
      obtain ⟨l, e1, h1, h2⟩ := bailiwickLoop_any hu.packet hq.usable hb 15 y.look.ns y.ns c3
      rw [e1]
      simp only [Res.ok_bind]
      have hnamed : ∀ x ∈ (y.look.ns.zip l).take 15, x.2 ≠ 37 → Named y.look.packet (Deleg b qs) x.1.1 :=
        fun x hx hx2 => inBailiwick_named hu.packet hb hends hq (h2 x hx hx2)
      obtain ⟨ms, ar, e2, g1, g2, g3, g4⟩ := linkLoop_any hu.packet y.look.ar (fun c => Named y.look.packet (Deleg b qs) c.1) 15 0
        y.look.ns l y.ar h1 hnamed c4
      rw [e2]
      simp only [Res.ok_bind]
      refine cacheString_any (v := { y with ns := ms, ar := ar }) hu hsz' (by omega) junk fun _ => ?_
      refine nsRefer_any (v := { y with ns := ms, ar := ar }) hu.packet hsz' hu.ns hu.ar g2 (R := Deleg b qs) ?_ ?_ ?_ junk
      · rintro ⟨n, hn, hn15⟩ x hx
        rw [hu.count] at hn
        cases hn
        refine g4 x ?_
        rw [List.take_of_length_le]
        · exact hx
        · rw [List.length_zip]; omega
      swap
      · rcases g3 with g3 | ⟨x, hx, k1, k2, ls, rest, k3, k4, k5, -⟩
        · exact .inl g3
        · exact .inr ⟨x, hx, k1, k2, ls, rest, k3, k4, k5, trivial⟩
      have := hv.2
      simp only
      rw [c2, hw.2] at g1
      omega
    · rename_i h16
      simp only [Res.ok_bind]
      refine cacheString_any (inp := inp) (by rw [r1]; exact hu) (by rw [r1]; exact hsz') (by rw [r1]; exact r3) junk fun h => absurd h h16

/-! ### From a reply to the cache -/

theorem nameStr_usable {name : List UInt8} (h : name.length ≤ 256) (junk : List UInt8) : Usable (nameStr name junk) := by
  unfold nameStr
  refine ⟨?_, by simp only; omega, by simp⟩
  unfold WF
  simp only [List.length_take, List.length_append, List.length_replicate]
  omega

theorem fetchU8_any {o : DwStr} (ho : Usable o) : Fine (o.fetchU8 (-1)) fun _ => True := by
  have hlt := ho.lt; have hlim := ho.lim
  unfold fetchU8
  simp only [ho.sane, Bool.not_true, Bool.false_eq_true, if_false, if_pos (show ((-1 : Int) < 0) by decide)]
  split
  · exact .err
  · rename_i h
    obtain ⟨x, e⟩ := peek_block ho (i := ((o.len : Int) + -1).toNat) (by omega)
    rw [e]
    exact .ok trivial

theorem kept_kind {T : List UInt8 → Prop} {o : DwStr} (ho : Kept T o) {k : Nat} (h : o.fetchU8 (-1) = .ok k) (h0 : k ≠ 0) :
    ∃ x, o.contents = x ++ [UInt8.ofNat k] := by
  have hu := ho.usable
  by_cases hne : o.contents = []
  · exfalso
    have hl := hu.clen
    rw [hne] at hl
    simp only [List.length_nil] at hl
    unfold fetchU8 at h
    simp only [hu.sane, Bool.not_true, Bool.false_eq_true, if_false, ← hl] at h
    simp [u32] at h
  · refine ⟨o.contents.dropLast, ?_⟩
    have hx : o.contents = o.contents.dropLast ++ [o.contents.getLast hne] := (List.dropLast_append_getLast hne).symm
    have := fetch_last hu hx
    rw [h] at this
    cases this
    simp only [UInt8.ofNat_toNat]
    exact hx

/-- What a reply to the question for `qs` and `qtype` leads to. -/
structure Sound (few : Prop) (R : List (List UInt8) → Prop) (qs : List (List UInt8)) (qtype : Nat) (st : Step) : Prop where
  ns : ∀ n, st.ns = some n → n.length < 134217727 ∧ Legible n ∧
    (few → n = [0, 16] ∨ ∃ z x, LabelsOk z ∧ R z ∧ n = encName z ++ x)
  puts : ∀ p ∈ st.puts, p.key = encName qs ++ be16 qtype ∨ p.key = encName qs ++ be16 65394 ∨
    ∃ name, p.key = name ++ be16 65395 ∧ p.value.length < 134217727 ∧ Legible p.value ∧
      (few → (name = [0] ∧ p.value = [0, 16]) ∨ ∃ z x, LabelsOk z ∧ R z ∧ name = encName z ∧ p.value = encName z ++ x)
  follow : ∀ q, st.follow = some q → ∃ p n, st.puts = [p] ∧ q = n ++ be16 qtype

theorem handleNsRefer_any {o : DwStr} (ho : Usable o) {few : Prop} {R : List (List UInt8) → Prop} (hl : Told few R o.contents)
    {qs : List (List UInt8)} {qtype : Nat} (cfg : Times) (ttl : Int) : Fine (handleNsRefer cfg o ttl) (Sound few R qs qtype) := by
  have := getDname_legible ho hl.1
  have hlen : o.contents.length < 134217727 := by
    have h1 := ho.clen; have h2 := ho.lt; have h3 := ho.lim
    omega
  have hns : few → o.contents = [0, 16] ∨ ∃ z x, LabelsOk z ∧ R z ∧ o.contents = encName z ++ x := fun hf => by
    rcases hl.2 hf with h | ⟨z, x, h1, h2, -, h3⟩
    · exact .inl h
    · exact .inr ⟨z, x, h1, h2, h3⟩
  unfold handleNsRefer
  cases e : getDname o.buf 0 260 with
  | ub => exact absurd e this
  | err => exact .ok ⟨fun n hn => by cases hn; exact ⟨hlen, hl.1, hns⟩, by simp, by simp⟩
  | ok r =>
    refine .ok ⟨fun n hn => by cases hn; exact ⟨hlen, hl.1, hns⟩, fun p hp => .inr (.inr ?_), by simp⟩
    rw [List.mem_singleton.1 hp]
    refine ⟨r.1, rfl, hlen, hl.1, fun hf => ?_⟩
    have at0 : ∀ {z : List (List UInt8)} {x : List UInt8}, LabelsOk z → z.length < 87 → o.contents = encName z ++ x →
        r.1 = encName z := by
      intro z x h1 h2 h3
      obtain ⟨r2, hd⟩ := buf_drop ho (pre := []) (l := encName z) (post := x) (by simpa using h3)
      unfold getDname at e
      simp only [gt_iff_lt, Nat.lt_irrefl, if_false] at e
      rw [if_neg (by omega)] at e
      rcases dnameLoop_plain o.buf 260 260 (by omega) z 400 0 [] r2 (by omega) (by omega) h1 (by simpa using hd) with e' | e'
      · rw [e'] at e; cases e
      · rw [e'] at e; cases e; simp
    rcases hl.2 hf with h0 | ⟨z, x, h1, h2, h4, h3⟩
    · left
      exact ⟨at0 (z := []) (x := [16]) (by intro l hl; cases hl) (by simp) h0, h0⟩
    · right
      exact ⟨z, x, h1, h2, at0 h1 h4 h3, h3⟩

/-- The key of an alias. -/
theorem aliasKey_any {query : DwStr} {qs : List (List UInt8)} {qtype : Nat} (h : Asked query qs qtype) (junk : List UInt8) :
    ∃ k, (query.copy junk) = .ok k ∧ ¬ k.len < 3 ∧ ∃ k', k.putU16 65394 (-3) = .ok k' ∧
      k'.contents = encName qs ++ be16 65394 := by
  obtain ⟨k, e1, e2, e3, e4⟩ := copy_exact h.usable junk
  have hl : k.contents.length = (encName qs).length + 2 := by
    rw [e4, h.contents]; simp [be16_length]
  have hcl := e2.clen
  have h255 := h.len
  have hpos : 0 < (encName qs).length := by simp [encName]
  obtain ⟨k', f1, f2, f3, f4⟩ := putU16_in e2 65394 (encName qs).length (by omega) (by omega)
  refine ⟨k, e1, by omega, k', ?_, ?_⟩
  · rw [← f1]
    unfold putU16
    have : (if (-3 : Int) < 0 then (k.len : Int) + -3 + 1 else -3) = ((encName qs).length : Nat) := by
      rw [if_pos (by omega)]; omega
    have h2 : (if (((encName qs).length : Nat) : Int) < 0 then (k.len : Int) + ((encName qs).length : Nat) + 1
        else (((encName qs).length : Nat) : Int)) = ((encName qs).length : Nat) := by
      rw [if_neg (by omega)]
    simp only [this, h2]
  · rw [f4, e4, h.contents]
    rw [List.set_append_right _ _ (by omega)]
    rw [List.set_append_right _ _ (by omega)]
    simp only [Nat.sub_self, Nat.add_sub_cancel_left]
    rfl

theorem handleCnameRefer_any {o query : DwStr} {qs : List (List UInt8)} {qtype : Nat} (ho : Usable o) (hm : 257 ≤ o.max)
    (hq : Asked query qs qtype) (few : Prop) (R : List (List UInt8) → Prop) (cfg : Times) (ttl : Int) (junk : List UInt8) :
    Fine (handleCnameRefer cfg o query ttl junk) (Sound few R qs qtype) := by
  obtain ⟨k, e1, e2, k', e3, e4⟩ := aliasKey_any hq junk
  unfold handleCnameRefer
  rw [e1, Res.ok_bind, if_neg e2, e3, Res.ok_bind]
  have hfine : Fine (do
      let o' ← o.fetchU16 (-2)
      let (name, _) ← getDname o.buf (o' + 2) 260
      let name ← lowerCase (nameStr name junk)
      let qtype ← query.fetchU16 (-1)
      name.putU16 qtype (-1) : Res DwStr) (fun t => ∃ n, t.contents = n ++ be16 qtype) := by
    refine (show Fine (o.fetchU16 (-2)) (· < 65536) from fetchU16_safe ho _ (by omega)).bind fun a _ => ?_
    have hb : 258 ≤ o.buf.length := by
      have := ho.wf
      unfold WF at this
      omega
    refine (getDname_far hb (a + 2)).bind fun r hr => ?_
    obtain ⟨name, n⟩ := r
    simp only at hr ⊢
    have hu := nameStr_usable hr junk
    by_cases hne : (nameStr name junk).contents = []
    · rw [lowerCase_empty hu hne]; exact .err
    · obtain ⟨s', e5, h5, -, -⟩ := lowerCase_any hu hne
      rw [e5, Res.ok_bind]
      rw [Asked.qtype hq, Res.ok_bind]
      obtain ⟨p1, p2⟩ := pushU16_exact qtype h5
      by_cases hroom : s'.max ≤ s'.contents.length + 2
      · exact .inl (p1 hroom)
      · obtain ⟨t', e, -, -, ht⟩ := p2 (by omega)
        exact .inr ⟨t', e, _, ht⟩
  have hs : ∀ f, (∀ q, f = some q → ∃ n, q = n ++ be16 qtype) →
      Sound few R qs qtype ⟨[⟨k'.contents, o.contents, aliasTtl cfg ttl⟩], none, f⟩ := fun f hf =>
    ⟨fun n hn => by simp at hn, fun p hp => by
      rw [List.mem_singleton.1 hp]
      exact .inr (.inl e4), fun q hq => by
      obtain ⟨n, hn⟩ := hf q hq
      exact ⟨_, n, rfl, hn⟩⟩
  simp only
  rcases hfine with e | ⟨q, e, n, hn⟩
  · simp only at e
    rw [e]; exact .ok (hs _ (by simp))
  · simp only at e
    rw [e]; exact .ok (hs _ fun q' hq' => ⟨n, by rw [← hn]; exact (Option.some.inj hq').symm⟩)

/-- Any reply at all: the zone of the servers asked is `bs` when they are the servers of `bs`. -/
theorem cacheReply_any {ns query inp : DwStr} {qs : List (List UInt8)} {qtype : Nat} (hn : Usable ns) (hl : Legible ns.contents)
    (hq : Asked query qs qtype) (hi : Usable inp) (hsz : Short inp) (cfg : Times) (up : Bool) (ttl : Int) (junk : List UInt8) :
    Fine (cacheReply cfg ns up query inp ttl junk)
      (Sound (∃ n, inp.fetchU16 ((inp.len : Int) - 1 - 4) = .ok n ∧ n ≤ 15) (fun z => ∀ bs, Servers ns bs → MayDelegate bs qs z)
        qs qtype) := by
  have hg := getDname_legible hn hl
  unfold cacheReply
  simp only
  cases e : getDname ns.buf 0 260 with
  | ub => exact absurd e hg
  | err => exact .err
  | ok r =>
  obtain ⟨b, n⟩ := r
  rw [Res.ok_bind]
  simp only
  split
  · exact .err
  rename_i hlen
  have hu := nameStr_usable (name := b) (by omega) junk
  have hb : ∀ bs, Servers ns bs → PlainAt (nameStr b junk).mem 0 bs := by
    intro bs hbs
    obtain ⟨rest, hc⟩ := hbs.begins
    obtain ⟨r2, hd⟩ := buf_drop hbs.usable (pre := []) (l := encName bs) (post := rest) (by simpa using hc)
    rcases getDname_plain hbs.name (offset := 0) (by simpa using hd) with e' | e'
    · rw [e'] at e; cases e
    · rw [e'] at e
      cases e
      exact (nameStr_zone hbs.name junk).plain
  refine (dissect_any hi hsz hq hu junk).bind fun o ho => ?_
  have hf : Fine (o.fetchU8 (-1)) fun k => o.fetchU8 (-1) = .ok k := by
    cases e : o.fetchU8 (-1) with
    | ok k => exact .ok rfl
    | err => exact .err
    | ub => exact absurd e (fetchU8_any ho.usable).not_ub
  refine hf.bind fun k hk => ?_
  split
  · refine .ok ⟨fun n hn => by simp at hn, fun p hp => ?_, by simp⟩
    rw [List.mem_singleton.1 hp]
    exact .inl hq.contents
  split
  · rename_i h16
    obtain ⟨x, hx⟩ := kept_kind ho hk (by omega)
    rw [h16.1] at hx
    obtain ⟨t1, t2⟩ := ho.refer x hx
    refine handleNsRefer_any ho.usable ⟨t1, fun hf => ?_⟩ cfg _
    rcases t2 hf with t2 | ⟨z, x, h1, h2, h3⟩
    · exact .inl t2
    · exact .inr ⟨z, x, h1, fun bs hbs => h2 bs (hb bs hbs), h3⟩
  split
  · rename_i h17
    obtain ⟨x, hx⟩ := kept_kind ho hk (by omega)
    rw [h17.1] at hx
    exact handleCnameRefer_any ho.usable (ho.leads x hx) hq _ _ cfg _ junk
  · exact .err

end Dissect
end Dw
