import Verif.Deadwood.TrustLemmas
/-!
# Lemmas: what holds of the cache and the requests at any time
-/

namespace Dw
namespace Trust
open DwStr Spec Dissect Incoming
open Acl (rd wr)

abbrev Conf := List (List (List UInt8) × List UInt8)
abbrev Log := List (List UInt8 × List UInt8)

/-- An answer is made of aliases and another answer. -/
def Joins (cfg : Cfg) (as v' v : List UInt8) : Prop :=
  ∃ q most junk p, Alias.makeReply cfg.times (Remote.dstr q) (Remote.dstr as) (Remote.dstr v') most junk = .ok p ∧ p.value = v

/-- A packet that was taken: its bytes are `c`, followed by `spare` in the receive buffer, which was `a0` with `count` bytes when the
question was looked at; it was judged by the list `l` and led to `st`. -/
structure Came (cfg : Cfg) (c spare a0 : List UInt8) (count : Nat) (query l : List UInt8) (up : Bool) (junk : List UInt8) (st : Step) :
    Prop where
  lim : c.length < 65536
  three : 3 ≤ spare.length
  question : Remote.question a0 count = .ok query
  rest : (c ++ spare).drop 12 = a0.drop 12
  h12 : 12 ≤ count
  le : c.length ≤ count
  len : count ≤ a0.length
  same : a0.length = c.length + spare.length
  max : count < 65536
  step : cacheDnsReply cfg.times cfg.filter cfg.blocked (Remote.dstr l) up (c ++ spare) c.length junk = .ok (.step st)

def Asked (query : List UInt8) (q : List (List UInt8)) (t : Nat) : Prop :=
  Spec.NameOk q ∧ t < 65536 ∧ query = encName q ++ be16 t

/-- What may come of a packet that was taken from servers of `z`, in reply to the question for `q` and `t`. -/
structure Taken (trusted : List (List UInt8) → List UInt8 → Prop) (aliased : List (List UInt8) → List UInt8 → Prop)
    (answered : List (List UInt8) → Nat → List UInt8 → Prop) (z q : List (List UInt8)) (t : Nat) (st : Step) : Prop where
  puts : ∀ e ∈ st.puts,
    (e.key = encName q ++ be16 t ∧ answered q t e.value) ∨
    (e.key = encName q ++ be16 65394 ∧ aliased q e.value) ∨
    (∃ z' x, Spec.NameOk z' ∧ trusted z' e.value ∧ e.key = encName z' ++ be16 65395 ∧ e.value = encName z' ++ x ∧
      e.value.length < 134217727) ∨
    (e.key = encName [] ++ be16 65395 ∧ e.value = [0, 16])
  next : ∀ l, st.ns = some l → l = [0, 16] ∨
    ∃ z' x, Spec.NameOk z' ∧ trusted z' l ∧ Below z' z ∧ Below q z' ∧ l = encName z' ++ x ∧ l.length < 134217727
  follow : ∀ q', st.follow = some q' → ∃ e n, st.puts = [e] ∧ aliased q e.value ∧ q' = n ++ be16 t

/-- What may be said of lists of servers, aliases and answers because of what was heard, and which packets must be taken so that it is
true of all. -/
structure Belief (cfg : Cfg) where
  trusted : Log → List (List UInt8) → List UInt8 → Prop
  aliased : Log → List (List UInt8) → List UInt8 → Prop
  answered : Log → List (List UInt8) → Nat → List UInt8 → Prop
  readable : List UInt8 → Prop
  trusted_mono : ∀ {h h' : Log}, (∀ x ∈ h, x ∈ h') → ∀ {z l}, trusted h z l → trusted h' z l
  aliased_mono : ∀ {h h' : Log}, (∀ x ∈ h, x ∈ h') → ∀ {z l}, aliased h z l → aliased h' z l
  answered_mono : ∀ {h h' : Log}, (∀ x ∈ h, x ∈ h') → ∀ {z t l}, answered h z t l → answered h' z t l
  joined : ∀ {h : Log} {q t value as q' t' value'}, aliased h q as → answered h q' t' value' → Joins cfg as value' value →
    answered h q t value
  asked : ∀ {c spare a0 count query l up junk st}, readable c → Came cfg c spare a0 count query l up junk st →
    ∃ q t, Asked query q t ∧ t ≠ 65394 ∧ t ≠ 65395
  taken : ∀ {c spare a0 count query l up junk st}, readable c → Came cfg c spare a0 count query l up junk st →
    ∀ {q t}, Asked query q t → ∀ {heard : Log} {z z0 from_}, Servers (Remote.dstr l) z → Below q z → trusted heard z0 from_ → Below z z0 →
      Taken (trusted ((from_, c) :: heard)) (aliased ((from_, c) :: heard)) (answered ((from_, c) :: heard)) z q t st

/-- A list of servers that may be believed. -/
structure Judge {cfg : Cfg} (B : Belief cfg) (heard : Log) (z : List (List UInt8)) (l : List UInt8) : Prop where
  name : Spec.NameOk z
  trusted : B.trusted heard z l
  begins : ∃ x, l = encName z ++ x
  lim : l.length < 134217727

def EntryOk {cfg : Cfg} (B : Belief cfg) (heard : Log) (e : Entry) : Prop :=
  ∃ z t, Spec.NameOk z ∧ t < 65536 ∧ e.key = encName z ++ be16 t ∧
    (t = 65395 → (z = [] ∧ e.value = [0, 16]) ∨ Judge B heard z e.value) ∧
    (t = 65394 → B.aliased heard z e.value) ∧
    (t ≠ 65395 → t ≠ 65394 → B.answered heard z t e.value)

/-- Not one of the types that Deadwood has for itself. -/
def Ordinary (query : List UInt8) : Prop := ∀ n t, t < 65536 → query = n ++ be16 t → t ≠ 65394 ∧ t ≠ 65395

def NsOk {cfg : Cfg} (B : Belief cfg) (heard : Log) (query : List UInt8) (ns : Option (List UInt8)) : Prop :=
  ∀ q t, Asked query q t → ∀ l, ns = some l → l = [0, 16] ∨ ∃ z, Judge B heard z l ∧ Below q z

def FromOk {cfg : Cfg} (B : Belief cfg) (heard : Log) (query : List UInt8) (ns : Option (List UInt8)) (f : List UInt8) : Prop :=
  ∀ q t, Asked query q t → ∀ l, ns = some l → l = [0, 16] ∨
    ∃ z z0, Judge B heard z l ∧ Below q z ∧ B.trusted heard z0 f ∧ Below z z0

def GlueOk {cfg : Cfg} (B : Belief cfg) (heard : Log) (query : List UInt8) (ns : Option (List UInt8)) (f : List UInt8) : Prop :=
  FromOk B heard query ns f ∧ ns ≠ none

structure SlotOk {cfg : Cfg} (B : Belief cfg) (heard : Log) (sl : Slot) : Prop where
  ordinary : Ordinary sl.query
  ns : NsOk B heard sl.query sl.ns
  sock : ∀ k, sl.sock = some k → FromOk B heard sl.query sl.ns k.list
  has : sl.ns = none → sl.sock = none
  seen : ∀ oq action, sl.role = .seen oq action → Ordinary oq ∧ ∃ q t, Asked oq q t ∧ B.aliased heard q action

structure Inv {cfg : Cfg} (B : Belief cfg) (s : State) : Prop where
  cache : ∀ e ∈ s.cache, EntryOk B s.heard e
  slots : ∀ b sl, s.slots b = some sl → SlotOk B s.heard sl
  glue : ∀ c cs b p l, s.slots c = some cs → cs.role = .glue b l → s.slots b = some p → p.child = some c →
    GlueOk B s.heard p.query p.ns l

section mono
variable {cfg : Cfg} {B : Belief cfg} {heard heard' : Log} (hh : ∀ x ∈ heard, x ∈ heard')
include hh

theorem Judge.mono {z l} (h : Judge B heard z l) : Judge B heard' z l := ⟨h.name, B.trusted_mono hh h.trusted, h.begins, h.lim⟩

theorem EntryOk.mono {e} (h : EntryOk B heard e) : EntryOk B heard' e := by
  obtain ⟨z, t, h1, h2, h3, h4, h5, h6⟩ := h
  exact ⟨z, t, h1, h2, h3, fun ht => (h4 ht).imp id (Judge.mono hh), fun ht => B.aliased_mono hh (h5 ht), fun a b => B.answered_mono hh (h6 a b)⟩

theorem NsOk.mono {q n} (h : NsOk B heard q n) : NsOk B heard' q n := fun a t ha l hl =>
  (h a t ha l hl).imp id fun ⟨z, h1, h2⟩ => ⟨z, h1.mono hh, h2⟩

theorem FromOk.mono {q n f} (h : FromOk B heard q n f) : FromOk B heard' q n f := fun a t ha l hl =>
  (h a t ha l hl).imp id fun ⟨z, z0, h1, h2, h3, h4⟩ => ⟨z, z0, h1.mono hh, h2, B.trusted_mono hh h3, h4⟩

theorem GlueOk.mono {q n f} (h : GlueOk B heard q n f) : GlueOk B heard' q n f := ⟨h.1.mono hh, h.2⟩

theorem SlotOk.mono {sl} (h : SlotOk B heard sl) : SlotOk B heard' sl :=
  ⟨h.ordinary, h.ns.mono hh, fun k hk => (h.sock k hk).mono hh, h.has, fun oq a ho =>
    ⟨(h.seen oq a ho).1, by obtain ⟨q, t, h1, h2⟩ := (h.seen oq a ho).2; exact ⟨q, t, h1, B.aliased_mono hh h2⟩⟩⟩
end mono

theorem judge_unique {cfg : Cfg} {B : Belief cfg} {heard heard' z z' l} (h : Judge B heard z l) (h' : Judge B heard' z' l) : z = z' := by
  obtain ⟨x, hx⟩ := h.begins
  obtain ⟨y, hy⟩ := h'.begins
  exact SR.encName_inj h.name.1 h'.name.1 (hx.symm.trans hy)

/-- A referral narrows the zone. -/
theorem FromOk.narrow {cfg : Cfg} {B : Belief cfg} {heard heard' : Log} (hh : ∀ x ∈ heard, x ∈ heard') {query l l' f : List UInt8}
    (h : FromOk B heard query (some l) f) (hl : l ≠ [0, 16])
    (hnew : ∀ q t, Asked query q t → l' = [0, 16] ∨ ∃ z z', Judge B heard z l ∧ Judge B heard' z' l' ∧ Below z' z ∧ Below q z') :
    FromOk B heard' query (some l') f := by
  intro q t ha m hm
  cases hm
  rcases hnew q t ha with e | ⟨z, z', h1, h2, h3, h4⟩
  · exact .inl e
  right
  rcases h q t ha l rfl with e | ⟨w, z0, g1, g2, g3, g4⟩
  · exact absurd e hl
  · have := judge_unique h1 g1
    subst this
    exact ⟨z', z0, h2, h4, B.trusted_mono hh g3, below_trans h3 g4⟩

theorem nsOk_fresh {cfg : Cfg} (B : Belief cfg) (heard : Log) (query : List UInt8) : NsOk B heard query none := fun _ _ _ _ h => by cases h

theorem slotOk_fresh {cfg : Cfg} (B : Belief cfg) (heard : Log) {query : List UInt8} (h : Ordinary query) {role : Role}
    (hr : ∀ oq action, role = .seen oq action → Ordinary oq ∧ ∃ q t, Asked oq q t ∧ B.aliased heard q action) :
    SlotOk B heard (.fresh query role) :=
  ⟨h, nsOk_fresh _ _ _, fun _ hk => (by cases hk), fun _ => rfl, hr⟩

theorem set_slots (s : State) (b : Nat) (sl : Option Slot) (i : Nat) : (s.set b sl).slots i = if i = b then sl else s.slots i := rfl

theorem set_same (s : State) (b : Nat) (sl : Option Slot) : (s.set b sl).slots b = sl := if_pos rfl

theorem ordinary_of (n : List UInt8) {g : Nat} (h : g < 65536 ∧ g ≠ 65394 ∧ g ≠ 65395) : Ordinary (n ++ be16 g) := by
  intro n' t ht he
  have hl := congrArg List.length he
  simp only [List.length_append, be16_length] at hl
  have := (List.append_inj he (by omega)).2
  rw [← be16_inj h.1 ht this]
  exact h.2

/-- Changing a request. -/
theorem Inv.set {cfg : Cfg} {B : Belief cfg} {s : State} (h : Inv B s) {b : Nat} {sl' : Slot} (hs : SlotOk B s.heard sl')
    (hp : ∀ c cs l, c ≠ b → s.slots c = some cs → cs.role = .glue b l → sl'.child = some c →
      GlueOk B s.heard sl'.query sl'.ns l)
    (hc : ∀ p ps l, p ≠ b → sl'.role = .glue p l → s.slots p = some ps → ps.child = some b → GlueOk B s.heard ps.query ps.ns l)
    (hb : ∀ l, sl'.role = .glue b l → sl'.child ≠ some b) : Inv B (s.set b (some sl')) := by
  refine ⟨h.cache, ?_, ?_⟩
  · intro c sl hsl
    rw [set_slots] at hsl
    split at hsl
    · cases hsl; exact hs
    · exact h.slots c sl hsl
  · intro c cs p ps l h1 h2 h3 h4
    rw [set_slots] at h1 h3
    split at h1
    · rename_i hcb
      cases h1
      split at h3
      · rename_i hpb
        cases h3
        rw [hpb] at h2; rw [hcb] at h4
        exact absurd h4 (hb l h2)
      · rename_i hpb
        rw [hcb] at h4
        exact hc p ps l hpb h2 h3 h4
    · rename_i hcb
      split at h3
      · rename_i hpb
        cases h3
        rw [hpb] at h2
        exact hp c cs l hcb h1 h2 h4
      · exact h.glue c cs p ps l h1 h2 h3 h4

theorem Inv.drop {cfg : Cfg} {B : Belief cfg} {s : State} (h : Inv B s) (b : Nat) : Inv B (s.set b none) := by
  refine ⟨h.cache, ?_, ?_⟩
  · intro c sl hsl
    rw [set_slots] at hsl
    split at hsl
    · cases hsl
    · exact h.slots c sl hsl
  · intro c cs p ps l h1 h2 h3 h4
    rw [set_slots] at h1 h3
    split at h1
    · cases h1
    split at h3
    · cases h3
    exact h.glue c cs p ps l h1 h2 h3 h4

/-- Changing a request for the same question, with the same role and child. -/
theorem Inv.update {cfg : Cfg} {B : Belief cfg} {s : State} (h : Inv B s) {b : Nat} {sl sl' : Slot} (hb : s.slots b = some sl)
    (hs : SlotOk B s.heard sl') (hr : sl'.role = sl.role) (hcd : sl'.child = sl.child)
    (hg : ∀ l, GlueOk B s.heard sl.query sl.ns l → GlueOk B s.heard sl'.query sl'.ns l) : Inv B (s.set b (some sl')) := by
  have hself : ∀ l, sl'.role = .glue b l → sl'.child = some b → GlueOk B s.heard sl'.query sl'.ns l := by
    intro l h1 h2
    exact hg l (h.glue b sl b sl l hb (by rw [← hr]; exact h1) hb (by rw [← hcd]; exact h2))
  refine ⟨h.cache, ?_, ?_⟩
  · intro c x hx
    rw [set_slots] at hx
    split at hx
    · cases hx; exact hs
    · exact h.slots c x hx
  · intro c cs p ps l h1 h2 h3 h4
    rw [set_slots] at h1 h3
    split at h1
    · rename_i hcb
      cases h1
      split at h3
      · rename_i hpb
        cases h3
        rw [hpb] at h2; rw [hcb] at h4
        exact hself l h2 h4
      · rename_i hpb
        rw [hcb] at h4
        exact h.glue b sl p ps l hb (by rw [← hr]; exact h2) h3 h4
    · rename_i hcb
      split at h3
      · rename_i hpb
        cases h3
        rw [hpb] at h2
        exact hg l (h.glue c cs b sl l h1 h2 hb (by rw [← hcd]; exact h4))
      · exact h.glue c cs p ps l h1 h2 h3 h4

/-- Putting something in the cache. -/
theorem Inv.put {cfg : Cfg} {B : Belief cfg} {s : State} (h : Inv B s) {k v : List UInt8}
    (he : EntryOk B s.heard ⟨k, v, false⟩) : Inv B { s with cache := put s.cache k v } :=
  ⟨fun e h' => (mem_put h').elim (h.cache e) fun h' => by rw [h']; exact he, h.slots, h.glue⟩

/-- The servers of a zone, as the cache has them. -/
theorem Inv.upstream {cfg : Cfg} {B : Belief cfg} {s : State} (h : Inv B s) {q : List (List UInt8)} {t : Nat} (hq : Spec.NameOk q)
    {junk l : List UInt8} {up : Bool} (hu : upstreamNs s.cache (encName q ++ be16 t) junk = .ok (some (l, up))) :
    l = [0, 16] ∨ ∃ z, Judge B s.heard z l ∧ Below q z := by
  obtain ⟨k, hk⟩ := upstreamNs_found hq hu
  obtain ⟨e, he, hek, hev⟩ := get_mem hk
  obtain ⟨z, t', h1, h2, h3, h4, -, -⟩ := h.cache e he
  have hqk : Spec.NameOk (q.drop k) := by
    refine ⟨fun x hx => hq.1 x (List.mem_of_mem_drop hx), ?_⟩
    have h2 := hq.2
    have : (encLabels (q.drop k)).length ≤ (encLabels q).length := by
      conv_rhs => rw [← List.take_append_drop k q]
      simp only [encLabels, List.flatMap_append, List.length_append]
      omega
    simp only [encName, List.length_append] at h2 ⊢
    omega
  obtain ⟨e1, e2⟩ := key_inj h1 hqk h2 (by omega) (h3.symm.trans hek)
  subst e1
  rcases h4 e2 with ⟨-, h4⟩ | h4
  · left; rw [← hev, h4]
  · right; exact ⟨_, by rw [← hev]; exact h4, below_drop q k⟩

/-- `make_remote_connection`. -/
theorem connect_inv {cfg : Cfg} {B : Belief cfg} {s s' : State} (h : Inv B s)
    (hgt : cfg.glueType < 65536 ∧ cfg.glueType ≠ 65394 ∧ cfg.glueType ≠ 65395) {b : Nat} {w : Wire} {junk : List UInt8}
    (hc : connect cfg s b w junk = .ok s') :
    Inv B s' ∧ s'.heard = s.heard ∧ s'.judged = s.judged ∧
    ∀ sl, s.slots b = some sl → ∃ sl', s'.slots b = some sl' ∧ sl'.query = sl.query ∧ ∀ l, sl.ns = some l → sl'.ns = some l := by
  unfold connect at hc
  cases hb : s.slots b with
  | none =>
    rw [hb] at hc; cases hc
    exact ⟨h, rfl, rfl, fun sl hsl => by cases hsl⟩
  | some sl =>
  rw [hb] at hc
  dsimp only at hc
  have hsl := h.slots b sl hb
  have key : ∀ r, whom s sl junk = .ok r →
      ∀ l up, r = some (l, up) → NsOk B s.heard sl.query (some l) ∧ (∀ m, sl.ns = some m → m = l) := by
    intro r hr l' up e
    unfold whom at hr
    cases hn : sl.ns with
    | some l =>
      rw [hn] at hr
      cases hr; cases e
      exact ⟨by rw [← hn]; exact hsl.ns, fun m hm => by cases hm; rfl⟩
    | none =>
      rw [hn] at hr
      dsimp only at hr
      cases hu : upstreamNs s.cache sl.query junk with
      | err => rw [hu] at hr; cases hr
      | ub => rw [hu] at hr; cases hr
      | ok o =>
        rw [hu] at hr
        cases o with
        | none => cases hr; cases e
        | some x =>
          obtain ⟨l', u'⟩ := x
          cases hr
          cases e
          refine ⟨?_, fun m hm => by cases hm⟩
          intro q t ha m hm
          cases hm
          rw [ha.2.2] at hu
          exact h.upstream ha.1 hu
  cases hr : whom s sl junk with
  | err => rw [hr] at hc; cases hc
  | ub => rw [hr] at hc; cases hc
  | ok r =>
  have hspec := key r hr
  rw [hr, Res.ok_bind] at hc
  cases r with
  | none =>
    cases hc
    exact ⟨h, rfl, rfl, fun x hx => ⟨x, hb.trans hx, rfl, fun _ h => h⟩⟩
  | some lu =>
  obtain ⟨l, up⟩ := lu
  dsimp only at hc
  obtain ⟨hns, hsame⟩ := hspec l up rfl
  cases hf : findAddr cfg s.cache (Remote.dstr l) (w.tries.take 7) sl.current with
  | err => rw [hf] at hc; cases hc
  | ub => rw [hf] at hc; cases hc
  | ok fc =>
  obtain ⟨f, current⟩ := fc
  rw [hf, Res.ok_bind] at hc
  dsimp only at hc
  have hblank : l = [0, 16] → f = .nobody := by
    rintro rfl
    rw [findAddr_blank] at hf
    cases hf; rfl
  have hnsome : ∀ m, sl.ns = some m → sl.ns = some l := fun m hm => by rw [hm, hsame m hm]
  have hglue : ∀ x, GlueOk B s.heard sl.query sl.ns x → GlueOk B s.heard sl.query (some l) x := by
    intro x hx
    refine ⟨?_, by simp⟩
    intro q t ha m hm
    cases hns0 : sl.ns with
    | none => exact absurd hns0 hx.2
    | some m' =>
      have e := hsame m' hns0
      subst e
      rw [hns0] at hx
      exact hx.1 q t ha m hm
  have hfrom : l ≠ [0, 16] → FromOk B s.heard sl.query (some l) l := by
    intro hne q t ha m hm
    cases hm
    rcases hns q t ha l rfl with e | ⟨z, h1, h2⟩
    · exact absurd e hne
    · exact .inr ⟨z, z, h1, h2, h1.trusted, below_refl z⟩
  have hsock : ∀ k, sl.sock = some k → FromOk B s.heard sl.query (some l) k.list := by
    intro k hk q t ha m hm
    cases hm
    cases hns0 : sl.ns with
    | none =>
      rw [hsl.has hns0] at hk; cases hk
    | some m' =>
      have e := hsame m' hns0
      subst e
      exact hsl.sock k hk q t ha m' hns0
  have hs1 : SlotOk B s.heard { sl with ns := some l, up := up, current := current } := ⟨hsl.ordinary, hns, hsock, fun hn => (by cases hn), hsl.seen⟩
  cases f with
  | nobody =>
    cases hc
    refine ⟨h.update hb hs1 rfl rfl hglue, rfl, rfl, ?_⟩
    intro x hx; cases hx
    exact ⟨_, set_same _ _ _, rfl, fun m hm => by rw [hsame m hm]⟩
  | ip a =>
    have hne : l ≠ [0, 16] := fun e => by cases hblank e
    cases hc
    refine ⟨h.update hb ?_ (by split <;> rfl) (by split <;> rfl) (by split <;> exact hglue), rfl, rfl, ?_⟩
    · split
      · exact ⟨hsl.ordinary, hns, (fun k hk => by cases hk; exact hfrom hne), fun hn => (by cases hn), hsl.seen⟩
      · exact hs1
    · intro x hx; cases hx
      refine ⟨_, set_same _ _ _, by split <;> rfl, fun m hm => ?_⟩
      rw [hsame m hm]; split <;> rfl
  | name q =>
    have hne : l ≠ [0, 16] := fun e => by cases hblank e
    dsimp only at hc
    split at hc
    swap
    · cases hc
      refine ⟨h.update hb hs1 rfl rfl hglue, rfl, rfl, ?_⟩
      intro x hx; cases hx
      exact ⟨_, set_same _ _ _, rfl, fun m hm => by rw [hsame m hm]⟩
    rename_i hcond
    obtain ⟨-, hfb, hfree⟩ := hcond
    cases hc
    obtain ⟨n, hn⟩ := findAddr_name hf
    have h1 : Inv B (s.set b (some { sl with ns := some l, up := up, current := current, child := some w.free })) := by
      refine h.set ⟨hsl.ordinary, hns, hsock, fun hn => (by cases hn), hsl.seen⟩ ?_ ?_ ?_
      · intro c cs x _ h1 _ h3
        cases h3
        rw [hfree] at h1; cases h1
      · intro p ps x _ h1 h2 h3
        exact h.glue b sl p ps x hb h1 h2 h3
      · intro x _ h2
        exact hfb (Option.some.inj h2)
    refine ⟨h1.set (slotOk_fresh _ _ (by rw [hn]; exact ordinary_of n hgt) (fun _ _ h => by cases h)) ?_ ?_ ?_, rfl, rfl, ?_⟩
    · intro c cs x _ _ _ h3; cases h3
    · intro p ps x _ h2 h3 h4
      cases h2
      rw [set_same] at h3
      cases h3
      exact ⟨hfrom hne, by simp⟩
    · intro x h2
      cases h2
      exact absurd rfl hfb
    · intro x hx; cases hx
      refine ⟨_, (if_neg (Ne.symm hfb)).trans (set_same _ _ _), rfl, fun m hm => by rw [hsame m hm]⟩

end Trust
end Dw
