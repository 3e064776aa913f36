import Verif.Mara.ServerReady
/-!
# Lemmas: one question
-/

namespace Mara
namespace Server

open Dw (Res)
open Spec
open Big (Key enc base Cell)
open Reply (Chain Closed SameOn Heap Node toEnd)
open Lookup (Asks Usual queryBytes Ordinary)

/-- A question: its identification, the wish for recursion, name and type; whether the client may get long
replies. -/
structure Query where
  id : Nat
  rd : Bool
  name : Name
  type : Nat
  long : Bool

/-- The packet is this question (and none of those about the server itself). -/
structure Poses (cfg : Lookup.Cfg) (p : Packet) (k : Query) : Prop where
  asks : Asks cfg p.raw k.name k.type
  plain : Lookup.Plain cfg k.name k.type
  head : ∃ hd rest, Ordinary hd ∧ p.raw.contents = queryBytes hd k.name k.type 1 rest ∧ hd.id.val = k.id ∧ hd.rd = k.rd
  long : p.long = k.long

/-- What the server says to a question when its records are in the order `o`, and the order afterwards. -/
inductive Says (sh : Shelf) (gs : List Given) (lim : Limits) (o : Order) (k : Query) : List UInt8 → Order → Prop
  /-- the records of the name, or the name servers of a delegation -/
  | records {n u aa a b an ns ar r} :
      ((Given.places gs).reply (lowName k.name) k.type = .records (false, n, u) ∧ aa = true ∨
        (Given.places gs).reply (lowName k.name) k.type = .referral (false, n, u) ∧ aa = false) →
      (sh.source gs lim o n u k.type).Shown a b an ns ar →
      (Reply.msg sh.item k.id aa k.rd k.name k.type an ns ar).bytes.length < 1024 →
      Reply.Delivered (Reply.msg sh.item k.id aa k.rd k.name k.type an ns ar) k.long r →
      Says sh gs lim o k r (o.next lim n u k.type)
  /-- the same, but the message is too long -/
  | tooLong {n u aa a b an ns ar o'} :
      ((Given.places gs).reply (lowName k.name) k.type = .records (false, n, u) ∧ aa = true ∨
        (Given.places gs).reply (lowName k.name) k.type = .referral (false, n, u) ∧ aa = false) →
      (sh.source gs lim o n u k.type).Shown a b an ns ar →
      1024 ≤ (Reply.msg sh.item k.id aa k.rd k.name k.type an ns ar).bytes.length →
      o' = o ∨ o' = o.next lim n u k.type →
      Says sh gs lim o k (serverFailure k.id k.rd) o'
  /-- star records -/
  | star {n u r} :
      (Given.places gs).reply (lowName k.name) k.type = .wildcard (true, n, u) u →
      Reply.SentOnce (Reply.starMsg (sh.shownAs (sh.starAnswers gs n u k.type) k.name u) sh.item k.id (Given.mark gs true n u) k.name k.type
        (sh.starAnswers gs n u k.type) (sh.starOthers gs n u k.type)
        (sh.oneAddress (sh.starAnswers gs n u k.type ++ sh.starOthers gs n u k.type))) k.id k.rd r →
      Says sh gs lim o k r o
  /-- there is nothing, or nothing of that type -/
  | denial {n i rcode r} :
      ((Given.places gs).reply (lowName k.name) k.type = .noData (false, n, 6) ∧ rcode = 0 ∨
        (Given.places gs).reply (lowName k.name) k.type = .nxDomain (false, n, 6) ∧ rcode = 3) →
      (o n 6).head? = some i →
      Reply.SentOnce (Reply.denialMsg k.id (Given.mark gs false n 6) k.rd rcode k.name k.type (sh.item i)) k.id k.rd r →
      Says sh gs lim o k r o
  | refused : (Given.places gs).reply (lowName k.name) k.type = .refused → Says sh gs lim o k (bareCode k.id k.rd 5) o
  | failure : (Given.places gs).reply (lowName k.name) k.type = .failure → Says sh gs lim o k (bareCode k.id k.rd 2) o

/-- The limits among the settings. -/
def limits (cfg : Reply.Cfg) : Limits := ⟨cfg.maxChain, cfg.maxTotal, cfg.maxAr, cfg.v6⟩

theorem buf_get {s : Js} {i : Nat} {x : UInt8} (h : s.contents[i]? = some x) : s.buf.getD i 0 = x := by
  unfold Js.contents at h
  rw [List.getElem?_take] at h
  split at h
  · rw [List.getD_eq_getElem?_getD, h]; rfl
  · cases h

/-- What a packet says. -/
theorem read_of {raw : Js} (hs : Js.Ok raw) {hd : Header} (ho : Ordinary hd) {n : Name} (hn : LabelsOk n) (hfits : (encName n).length ≤ 253) {t : Nat}
    {rest : List UInt8} (hc : raw.contents = queryBytes hd n t 1 rest) :
    idOf raw = hd.id.val ∧ rdOf raw = hd.rd ∧ question raw = encName n ++ be16 t ∧ 2 ≤ raw.count := by
  have hb := hs.block
  have hfit := hs.fits
  have h1 : raw.contents.length = raw.count := by
    unfold Js.contents; rw [List.length_take]; omega
  have hcount : raw.count = 12 + (encName n).length + 4 + rest.length := by
    rw [← h1, hc]
    simp [queryBytes, Lookup.enc_length, Lookup.u16]
    omega
  have g : ∀ i, i < 12 → raw.contents[i]? = hd.enc[i]? := by
    intro i hi
    rw [hc]
    unfold queryBytes
    rw [List.getElem?_append_left (by rw [Lookup.enc_length]; exact hi)]
  have g0 := buf_get (show raw.contents[0]? = some (UInt8.ofNat (hd.id.val / 256)) from g 0 (by omega))
  have g1 := buf_get (show raw.contents[1]? = some (UInt8.ofNat hd.id.val) from g 1 (by omega))
  have g2 := buf_get (show raw.contents[2]? = some (flags1 hd.qr hd.opcode hd.aa hd.tc hd.rd) from g 2 (by omega))
  refine ⟨?_, ?_, ?_, by omega⟩
  · unfold idOf
    rw [g0, g1]
    have := hd.id.isLt
    simp only [UInt8.toNat_ofNat']
    omega
  · unfold rdOf
    rw [g2, ho.qr, ho.opcode, Bool.eq_iff_iff, decide_eq_true_iff]
    exact (Lookup.flag_bits hd.aa hd.tc hd.rd).2.2
  · unfold question
    have hdl : Lookup.dlabelLength raw 12 = .ok (encName n).length := by
      rw [Lookup.dlabelLength_list hs 12 (by omega), hc]
      have := Lookup.dlabel_name hn hd.enc (Lookup.u16 t ++ (Lookup.u16 1 ++ rest)) 12 256 0 (by rw [Lookup.enc_length])
        (by have := Lookup.Fits.labels hn; omega) (by omega)
      unfold queryBytes
      rw [this]
      simp
    rw [hdl, hc]
    simp only []
    unfold queryBytes
    rw [List.drop_left' (Lookup.enc_length hd), ← List.append_assoc, List.take_left' (by simp [Lookup.u16])]
    rfl

theorem Poses.read {cfg : Lookup.Cfg} {p : Packet} {k : Query} (h : Poses cfg p k) :
    idOf p.raw = k.id ∧ rdOf p.raw = k.rd ∧ question p.raw = encName k.name ++ be16 k.type ∧ 2 ≤ p.raw.count ∧ NameOk k.name := by
  obtain ⟨hd, rest, ho, hc, hid, hrd⟩ := h.head
  have hfits := h.asks.fits
  obtain ⟨h1, h2, h3, h4⟩ := read_of h.asks.live ho h.asks.labels hfits hc
  exact ⟨h1.trans hid, h2.trans hrd, h3, h4, h.asks.labels, by omega⟩

/-- What of a packet matters once its question has been looked for. -/
structure Reads (p : Packet) (k : Query) : Prop where
  read : idOf p.raw = k.id ∧ rdOf p.raw = k.rd ∧ question p.raw = encName k.name ++ be16 k.type ∧ 2 ≤ p.raw.count ∧ NameOk k.name
  type : k.type < 65536
  long : p.long = k.long

theorem Poses.reads {cfg : Lookup.Cfg} {p : Packet} {k : Query} (h : Poses cfg p k) : Reads p k := ⟨h.read, h.asks.type, h.long⟩

section
variable {W : World} {v6 : Bool} {o : Order} {s0 s : Srv} {gs : List Given}

theorem answers_eq (fi : Fits W gs) {n : Name} {u : Nat} (hn : LabelsOk n) (hne : W.own (encName n, u) ≠ []) (o : Order) (t : Nat) :
    W.answers o n u t = W.shelf.answers gs o n u t ∧ W.others o n u t = W.shelf.others gs o n u t := by
  have := fi.tail false n u hn hne
  have this : W.tail (encName n, u) = _ := this
  unfold World.answers World.others Shelf.answers Shelf.others
  rw [this]
  exact ⟨rfl, rfl⟩

theorem source_eq (fi : Fits W gs) {n : Name} {u : Nat} (hn : LabelsOk n) (hne : W.own (encName n, u) ≠ []) (cfg : Reply.Cfg) (o : Order) (t : Nat) :
    sourceOf W cfg o n u t (W.auth (encName n, u) || decide (t ≠ 2 ∧ u = 2)) = W.shelf.source gs (limits cfg) o n u t := by
  obtain ⟨h1, h2⟩ := answers_eq fi hn hne o t
  have h3 : W.auth (encName n, u) = _ := fi.auth false n u hn hne
  unfold sourceOf Shelf.source
  rw [h1, h2, h3]
  rfl

/-- A question that is answered by records that are not star records. -/
theorem Ready.success (st : Stands W v6 s0.heap s0.dict) (fi : Fits W gs) (r : Ready W v6 s0 o s) {cfg : Cfg} (hcfg : cfg.reply.maxTotal ≤ 20)
    (hv : cfg.reply.v6 = v6) {p : Packet} {k : Query} (hp : Reads p k) {n : Name} (hn : LabelsOk n) {u : Nat} (hne : W.own (encName n, u) ≠ [])
    (force : Bool) (hq : Lookup.procQuery cfg.look s.hash p.raw = .ok (.success (keyOf (false, n, u)) force)) :
    ∃ a b an ns ar c s' o', (W.shelf.source gs (limits cfg.reply) o n u k.type).Shown a b an ns ar ∧
      answer cfg s p.raw p.long = .ok (some c, s') ∧ Ready W v6 s0 o' s' ∧
      (1024 ≤ (Reply.msg W.item k.id (force || Given.mark gs false n u) k.rd k.name k.type an ns ar).bytes.length ∧ c = serverFailure k.id k.rd ∧
          (o' = o ∨ o' = o.next (limits cfg.reply) n u k.type) ∨
        (Reply.msg W.item k.id (force || Given.mark gs false n u) k.rd k.name k.type an ns ar).bytes.length < 1024 ∧
          Reply.Delivered (Reply.msg W.item k.id (force || Given.mark gs false n u) k.rd k.name k.type an ns ar) k.long c ∧
          o' = o.next (limits cfg.reply) n u k.type) := by
  obtain ⟨e1, e2, e3, e4, e5⟩ := hp.read
  obtain ⟨hm, m, hsm⟩ := r.mask
  obtain ⟨first, l, hol⟩ := m.first hn hne
  have hf : (o n u).head? = some first := by rw [hol]; rfl
  have hfp : W.Plain first := ⟨n, u, hn, (m.perm n u hn).mem_iff.1 (List.mem_of_mem_head? hf)⟩
  obtain ⟨a, b, an, ns, ar, d, o', h1, h2, h3, h4, h5⟩ := m.success st hcfg hv hn hne hf e5 hp.type k.id k.rd force k.long
  obtain ⟨h'', h6, h7, h8, h9, h10⟩ := Reply.udpsuccess_over m.closed hsm hfp h2
  rw [source_eq fi hn hne] at h1
  have hau : W.auth (encName n, u) = _ := fi.auth false n u hn hne
  rw [hau] at h5
  have hdict : s.dict (keyOf (false, n, u)) = some (.rr first) := by
    have := r.dict n u hn hne
    rw [hf] at this
    exact this
  have hto : ∀ n' t', ¬(n' = n ∧ t' = u) → o' n' t' = o n' t' := by
    have hor : o' = o ∨ o' = turnIf cfg.reply o n u k.type := by
      rcases h5 with ⟨_, _, h⟩ | ⟨_, _, h⟩
      · exact h
      · exact .inr h
    intro n' t' hk
    rcases hor with rfl | rfl
    · rfl
    · unfold turnIf
      split
      · exact if_neg hk
      · rfl
  refine ⟨a, b, an, ns, ar, d.reply, _, o', h1, ?_, r.step st hn hne hto h3 h7 (fun i hi => h10 i hi) h4, ?_⟩
  · unfold answer
    rw [hq, Res.ok_bind]
    simp only [Srv.first, hdict, Res.ok_bind]
    rw [e1, e2, e3, hp.long, h6]
    rfl
  · rcases h5 with ⟨h, h', h''⟩ | ⟨h, h', h''⟩
    · exact .inl ⟨h, h', h''⟩
    · exact .inr ⟨h, h', h''⟩

theorem Ready.looks (st : Stands W v6 s0.heap s0.dict) (r : Ready W v6 s0 o s) {star : Bool} {n : Name} {t : Nat} (hn : LabelsOk n) {i : Nat}
    (hi : i ∈ W.own (base star n, t)) : ∃ p, s.heap[i]? = some p ∧ Looks W v6 (base star n, t) i p := by
  cases star with
  | false =>
    obtain ⟨hm, m, hsm⟩ := r.mask
    obtain ⟨p, hp, lk⟩ := m.looks n t hn i hi
    rw [hsm.at_ i ⟨n, t, hn, hi⟩] at hp
    exact ⟨p, hp, lk⟩
  | true =>
    obtain ⟨p, hp, lk⟩ := st.looks _ i hi
    refine ⟨p, ?_, lk⟩
    rw [r.same i, hp]
    rintro ⟨m, u, hm, hi'⟩
    have := st.disj _ _ _ hi hi'
    injection this with e1 e2
    have := Big.base_inj (a := true) (b := false) hn hm e1
    cases this.1

theorem notPlain (st : Stands W v6 s0.heap s0.dict) {n : Name} {t : Nat} (hn : LabelsOk n) {i : Nat} (hi : i ∈ W.own (base true n, t)) : ¬W.Plain i := by
  rintro ⟨m, u, hm, hi'⟩
  have := st.disj _ _ _ hi hi'
  injection this with e1 e2
  have := Big.base_inj (a := true) (b := false) hn hm e1
  cases this.1

theorem chain_glue {h h' : Heap} {r : List Nat} (hr : Chain h' r.head? r) : ∀ {l : List Nat} {a : Option Nat}, Chain h a (l ++ r) →
    (∀ i ∈ l, h'[i]? = h[i]?) → Chain h' a (l ++ r)
  | [], a, hc, _ => by
    have := Reply.chain_head hc
    rw [List.nil_append] at this ⊢
    rw [this]
    exact hr
  | i :: l, a, hc, hs => by
    cases hc with
    | cons hp hc => exact .cons (by rw [hs i (by simp)]; exact hp) (chain_glue hr hc fun j hj => hs j (List.mem_cons_of_mem _ hj))

theorem Ready.starChain (st : Stands W v6 s0.heap s0.dict) (r : Ready W v6 s0 o s) {n : Name} {t : Nat} (hn : LabelsOk n)
    (hne : W.own (base true n, t) ≠ []) :
    Chain s.heap (W.own (base true n, t)).head? (W.own (base true n, t) ++ W.tail (base true n, t)) := by
  refine chain_glue ?_ (st.chain _ hne) fun i hi => r.same i (notPlain st hn hi)
  rcases st.tail (base true n, t) with h0 | ⟨_, z, hz, e⟩
  · rw [h0]; exact .nil
  · rw [e]
    by_cases hz2 : W.own (encName z, 2) = []
    · rw [hz2]; exact .nil
    · obtain ⟨hm, m, hsm⟩ := r.mask
      have := m.chain z 2 hz hz2
      rw [m.still z hz, st.two _ rfl, List.append_nil] at this
      exact chain_congr this fun i hi => (hsm.at_ i ⟨z, 2, hz, hi⟩).symm

theorem renamed_sound {r : Rec} (h : r.Sound) {q : Name} (hq : NameOk q) {u : Nat} (hu : u < 65536) (hl : rdLayout u = rdLayout r.type)
    (h1 : u = 1 → r.type = 1) (h16 : u = 16 → r.type = 16) : ({ r with name := q, type := u } : Rec).Sound where
  ok := ⟨hu, h.ok.cls, h.ok.ttl, h.ok.size, by have := h.ok.form; rw [← hl] at this; exact this⟩
  name := hq
  names := h.names
  ttl := h.ttl
  a e := h.a (h1 e)
  txt e := h.txt (h16 e)

/-- A question that is answered by star records. -/
theorem Ready.starred (st : Stands W v6 s0.heap s0.dict) (fi : Fits W gs) (r : Ready W v6 s0 o s) {cfg : Cfg}
    {p : Packet} {k : Query} (hp : Reads p k) {n : Name} (hn : LabelsOk n) {u : Nat} (hne : W.own (base true n, u) ≠ [])
    (hu : u = k.type ∨ u = 5)
    (hq : Lookup.procQuery cfg.look s.hash p.raw = .ok (.star (keyOf (true, n, u)) (encName k.name ++ be16 u) 0)) :
    ∃ c, answer cfg s p.raw p.long = .ok (some c, s) ∧
      Reply.SentOnce (Reply.starMsg (W.shelf.shownAs (W.shelf.starAnswers gs n u k.type) k.name u) W.item k.id (Given.mark gs true n u) k.name k.type
        (W.shelf.starAnswers gs n u k.type) (W.shelf.starOthers gs n u k.type)
        (W.shelf.oneAddress (W.shelf.starAnswers gs n u k.type ++ W.shelf.starOthers gs n u k.type))) k.id k.rd c := by
  obtain ⟨e1, e2, e3, e4, e5⟩ := hp.read
  have ht := hp.type
  have eo : W.shelf.own true n u = W.own (base true n, u) := rfl
  have etl : W.tail (base true n, u) = W.shelf.servers gs true n u := fi.tail true n u hn hne
  generalize eas : W.shelf.starAnswers gs n u k.type = as
  generalize enss : W.shelf.starOthers gs n u k.type = nss
  have hall : as ++ nss = W.own (base true n, u) ++ W.tail (base true n, u) := by
    rw [← eas, ← enss]
    unfold Shelf.starAnswers Shelf.starOthers
    rw [etl, ← eo]
    split <;> simp
  obtain ⟨f, l, hol⟩ : ∃ f l, W.own (base true n, u) = f :: l := by
    cases h : W.own (base true n, u) with
    | nil => exact absurd h hne
    | cons f l => exact ⟨f, l, rfl⟩
  have hgu := st.good _ hne
  have hu16 : u < 65536 := by have := hgu.small; dsimp only at this; omega
  have hdict : s.dict (keyOf (true, n, u)) = some (.rr f) := by
    have h1 := r.star n u hn
    have h2 := st.dict (base true n, u) hu16 hgu.kind.1
    rw [hol] at h2
    exact h1.trans h2
  have hchain := r.starChain st hn hne
  rw [hol, List.head?_cons, ← hol, ← hall] at hchain
  -- every record of the chain
  have each : ∀ i ∈ as ++ nss, ∃ star m t p, LabelsOk m ∧ i ∈ W.own (base star m, t) ∧ s.heap[i]? = some p ∧ Looks W v6 (base star m, t) i p ∧
      (star = true ∧ m = n ∧ t = u ∧ i ∈ as ∨ star = false ∧ t = 2 ∧ u ≠ 2 ∧ (i ∈ as ↔ k.type = 2)) := by
    intro i hi
    have hi' := hi
    rw [hall] at hi'
    rcases List.mem_append.1 hi' with hi' | hi'
    · obtain ⟨p, hp, lk⟩ := r.looks st hn hi'
      refine ⟨true, n, u, p, hn, hi', hp, lk, .inl ⟨rfl, rfl, rfl, ?_⟩⟩
      rw [← eas]
      unfold Shelf.starAnswers
      rw [eo]
      split
      · exact List.mem_append_left _ hi'
      · exact hi'
    · obtain ⟨hpl, z, hz, hiz⟩ := st.tailPlain _ i hi'
      obtain ⟨p, hp, lk⟩ := r.looks (star := false) st hz hiz
      have hu2 : u ≠ 2 := by
        rintro rfl
        rw [st.two _ rfl] at hi'
        cases hi'
      refine ⟨false, z, 2, p, hz, hiz, hp, lk, .inr ⟨rfl, rfl, hu2, ?_⟩⟩
      rw [← eas]
      unfold Shelf.starAnswers
      rw [eo]
      split
      · rename_i h2
        exact ⟨fun _ => h2, fun _ => List.mem_append_right _ (by rw [← etl]; exact hi')⟩
      · rename_i h2
        exact ⟨fun h => absurd hpl (notPlain st hn h), fun h => absurd h h2⟩
  have hotherT : nss ≠ [] → k.type ≠ 2 := by
    rw [← enss]
    unfold Shelf.starOthers
    intro h h2
    rw [if_pos h2] at h
    exact h rfl
  have hnotas : ∀ i ∈ nss, i ∉ as ∧ i ∈ W.tail (base true n, u) := by
    intro i hi
    have h2 := hotherT (List.ne_nil_of_mem hi)
    have hit : i ∈ W.tail (base true n, u) := by
      rw [← enss] at hi
      unfold Shelf.starOthers at hi
      rw [if_neg h2, ← etl] at hi
      exact hi
    refine ⟨fun h => ?_, hit⟩
    rw [← eas] at h
    unfold Shelf.starAnswers at h
    rw [if_neg h2, eo] at h
    exact notPlain st hn h (st.tailPlain _ i hit).1
  have hlen : (as ++ nss).length ≤ s.heap.length := by
    have hnd : (as ++ nss).Nodup := by
      rw [hall]
      refine List.nodup_append.2 ⟨st.nodup _, ?_, ?_⟩
      · rcases st.tail (base true n, u) with h0 | ⟨_, z, hz, e⟩
        · rw [h0]; simp
        · rw [e]; exact st.nodup _
      · rintro i hi j hj rfl
        exact notPlain st hn hi (st.tailPlain _ i hj).1
    have hs : List.Subperm (as ++ nss) (List.range s.heap.length) :=
      hnd.subperm fun j hj => List.mem_range.2 (hchain.lt j hj)
    simpa using hs.length_le
  obtain ⟨pf, hpf, lkf⟩ := r.looks (i := f) st hn (by rw [hol]; simp : f ∈ W.own (base true n, u))
  have hauth : pf.auth = Given.mark gs true n u := lkf.auth.trans (fi.auth true n u hn hne)
  have haddr : Reply.starAddrs s.heap (as ++ nss) = W.shelf.oneAddress (as ++ nss) := by
    unfold Reply.starAddrs Shelf.oneAddress
    refine List.filterMap_congr fun i hi => ?_
    obtain ⟨star, m, t, p, hm, hio, hp, lk, _⟩ := each i hi
    have hty : (W.shelf.item i).type = t := (st.item star m t hm i hio).2.2.1
    have hpt : p.type = t := lk.type
    rw [hp, hty]
    simp only [hpt, lk.ip]
    by_cases h5 : t = 5
    · subst h5; simp
    · rw [if_neg h5]
      rfl
  have hA : ∀ i ∈ as, ∀ p, s.heap[i]? = some p → ¬(k.type ≠ 2 ∧ p.type = 2) ∧
      Reply.Shows (encName k.name ++ be16 u) 0 false p (W.shelf.shownAs as k.name u i) := by
    intro i hi p hp
    obtain ⟨star, m, t, p', hm, hio, hp', lk, hcase⟩ := each i (List.mem_append_left _ hi)
    rw [hp] at hp'
    injection hp' with hp'
    subst hp'
    obtain ⟨i1, i2, i3, i4⟩ := st.item star m t hm i hio
    have hpt : p.type = t := lk.type
    have hsh : W.shelf.shownAs as k.name u i = { W.item i with name := k.name, type := u } := if_pos hi
    refine ⟨?_, ⟨encName k.name ++ be16 u, rfl, ?_⟩⟩
    · rintro ⟨h1, h2⟩
      rcases hcase with ⟨_, _, h3, _⟩ | ⟨_, _, _, h3⟩
      · omega
      · exact h1 (h3.1 hi)
    · rw [hsh]
      refine ⟨rfl, rfl, i4, lk.ttl, lk.data, renamed_sound i1 e5 hu16 ?_ ?_ ?_⟩
      all_goals rw [i3]
      all_goals rcases hcase with ⟨_, _, h3, _⟩ | ⟨_, h3, h4, h5⟩
      · rw [h3]
      · have := h5.1 hi
        have : u = 5 := by omega
        rw [h3, this]
        rfl
      · omega
      · have := h5.1 hi
        omega
      · omega
      · have := h5.1 hi
        omega
  have hN : ∀ i ∈ nss, ∀ p, s.heap[i]? = some p → (k.type ≠ 2 ∧ p.type = 2) ∧
      Reply.Shows (encName k.name ++ be16 u) 0 true p (W.shelf.shownAs as k.name u i) := by
    intro i hi p hp
    obtain ⟨h1, h2⟩ := hnotas i hi
    obtain ⟨_, z, hz, hiz⟩ := st.tailPlain _ i h2
    obtain ⟨p', hp', lk⟩ := r.looks (star := false) st hz hiz
    rw [hp] at hp'
    injection hp' with hp'
    subst hp'
    have hsh : W.shelf.shownAs as k.name u i = W.item i := if_neg h1
    have hho := st.holds hz hiz lk
    refine ⟨⟨hotherT (List.ne_nil_of_mem hi), lk.type⟩, ⟨p.query, rfl, ?_⟩⟩
    rw [hsh]
    exact ⟨hho.1, rfl, hho.3, hho.4, hho.5, hho.6⟩
  have hip : ∀ i ∈ as ++ nss, ∀ p a, s.heap[i]? = some p → p.ip = some a → p.type ≠ 5 → ∃ q, s.heap[a]? = some q ∧ Reply.Holds q (W.item a) := by
    intro i hi p a hp ha _
    obtain ⟨star, m, t, p', hm, hio, hp', lk, _⟩ := each i hi
    rw [hp] at hp'
    injection hp' with hp'
    subst hp'
    rw [lk.ip] at ha
    split at ha
    · rename_i hc
      have hc : t = 2 ∨ t = 15 := hc
      have hho := (st.host hm hio (by omega)).1
      have hao := List.mem_of_mem_head? ha
      obtain ⟨q, hq, lq⟩ := r.looks (star := false) st hho hao
      exact ⟨q, hq, st.holds hho hao lq⟩
    · cases ha
  obtain ⟨c, hc, hs⟩ := Reply.udpstar_sent (shown := W.shelf.shownAs as k.name u) (rec := W.item) e5 ht hpf hchain hlen hA hN hip k.id k.rd
  rw [hauth, haddr] at hs
  refine ⟨c, ?_, hs⟩
  unfold answer
  rw [hq, Res.ok_bind]
  simp only [Srv.first, hdict, Res.ok_bind]
  rw [e1, e2, e3, hc]
  rfl

/-- A question for which there is nothing. -/
theorem Ready.denied (st : Stands W v6 s0.heap s0.dict) (fi : Fits W gs) (r : Ready W v6 s0 o s) {cfg : Cfg}
    {p : Packet} {k : Query} (hp : Reads p k) {n : Name} (hn : LabelsOk n) (hne : W.own (encName n, 6) ≠ []) {rcode : Nat} (hr : rcode ≤ 15)
    (hq : Lookup.procQuery cfg.look s.hash p.raw = .ok (.negative (keyOf (false, n, 6)) rcode)) :
    ∃ c i, answer cfg s p.raw p.long = .ok (some c, s) ∧ (o n 6).head? = some i ∧
      Reply.SentOnce (Reply.denialMsg k.id (Given.mark gs false n 6) k.rd rcode k.name k.type (W.item i)) k.id k.rd c := by
  obtain ⟨e1, e2, e3, e4, e5⟩ := hp.read
  obtain ⟨hm, m, hsm⟩ := r.mask
  obtain ⟨f, l, hol⟩ := m.first hn hne
  have hf : (o n 6).head? = some f := by rw [hol]; rfl
  have hfo : f ∈ W.own (encName n, 6) := (m.perm n 6 hn).mem_iff.1 (List.mem_of_mem_head? hf)
  obtain ⟨pf, hpf, lk⟩ := r.looks (star := false) st hn hfo
  have hdict : s.dict (keyOf (false, n, 6)) = some (.rr f) := by
    have := r.dict n 6 hn hne
    rw [hf] at this
    exact this
  have hho := st.holds hn hfo lk
  have hhead : pf.query.head? ≠ some 95 := by
    rw [lk.query]
    obtain ⟨c, l, e, _, hc⟩ := Big.encName_head hn
    show (encName n ++ _).head? ≠ _
    rw [e]
    simpa using hc
  obtain ⟨c, hc, hs⟩ := Reply.udpnotfound_sent (p := pf) (soa := W.item f) e5 hp.type (by rw [if_neg hhead]; exact hho) hr k.id k.rd
  rw [show pf.auth = Given.mark gs false n 6 from lk.auth.trans (fi.auth false n 6 hn hne)] at hs
  refine ⟨c, f, ?_, hf, hs⟩
  unfold answer
  rw [hq, Res.ok_bind]
  simp only [Srv.first, hdict, Res.ok_bind, Reply.deref, hpf]
  rw [e1, e2, e3, hc]
  rfl

theorem udperror_none (id : Nat) (rd : Bool) {code : Nat} (hc : code ≤ 15) : Reply.udperror id none code rd = some (bareCode id rd (UInt8.ofNat code)) := by
  unfold Reply.udperror bareCode
  have h1 : ¬((code : Int) = -111) := by omega
  simp only [h1, decide_false, if_false, Option.isNone_none, if_true, Int.toNat_natCast]
  unfold Reply.makeHdr
  rw [Reply.flagByte false rd, Reply.codeByte' hc]
  have e : (128 : UInt8) + (if false = true then 4 else 0) + (if rd = true then 1 else 0) = 128 + (if rd then 1 else 0) := by
    cases rd <;> decide
  rw [e]
  have z : Reply.put16 0 = [0, 0] := by decide
  show some (Reply.put16 id ++ _ ++ Reply.put16 0 ++ Reply.put16 0 ++ Reply.put16 0 ++ Reply.put16 0) = _
  rw [z, Reply.put16_be16]
  simp

theorem given_labels (hl : Big.Loadable gs) {star : Bool} {n : Name} {t : Nat} (h : gs.any (Given.at? star n t) = true) : LabelsOk n := by
  rw [List.any_eq_true] at h
  obtain ⟨g, hg, h⟩ := h
  rw [← (Big.at_iff.1 h).2.1]
  exact (hl.fit g hg).name.1

/-- One question: the reply is what it has to be, and the server is ready for the next one. -/
theorem Ready.asked (st : Stands W v6 s0.heap s0.dict) (fi : Fits W gs) (hl : Big.Loadable gs)
    (hs : Lookup.Stores s0.hash (mapZone keyOf (Given.places gs))) (r : Ready W v6 s0 o s) {cfg : Cfg} (hu : Usual cfg.look)
    (hcfg : cfg.reply.maxTotal ≤ 20) (hv : cfg.reply.v6 = v6) {p : Packet} {k : Query} (hp : Poses cfg.look p k) :
    ∃ c s' o', answer cfg s p.raw p.long = .ok (some c, s') ∧ Ready W v6 s0 o' s' ∧ Says W.shelf gs (limits cfg.reply) o k c o' := by
  have hq := Lookup.answer_exact hs hu hp.asks hp.plain
  rw [← r.hash, mapZone_reply] at hq
  have hpl := places_reply gs (lowName k.name) k.type
  obtain ⟨e1, e2, e3, e4, e5⟩ := hp.read
  cases hrep : (Given.places gs).reply (lowName k.name) k.type with
  | records x =>
    rw [hrep] at hpl hq
    obtain ⟨u, hu5, rfl, hany⟩ := hpl
    have hn := given_labels hl hany
    obtain ⟨a, b, an, ns, ar, c, s', o', h1, h2, h3, h4⟩ := r.success st fi hcfg hv hp.reads hn ((fi.own false _ u hn).2 hany) true hq
    rw [Bool.true_or] at h4
    refine ⟨c, s', o', h2, h3, ?_⟩
    rcases h4 with ⟨h5, rfl, h6⟩ | ⟨h5, h6, rfl⟩
    · exact .tooLong (.inl ⟨hrep, rfl⟩) h1 h5 h6
    · exact .records (.inl ⟨hrep, rfl⟩) h1 h5 h6
  | referral x =>
    rw [hrep] at hpl hq
    obtain ⟨m, rfl, hany, hma⟩ := hpl
    have hn := given_labels hl hany
    obtain ⟨a, b, an, ns, ar, c, s', o', h1, h2, h3, h4⟩ := r.success st fi hcfg hv hp.reads hn ((fi.own false _ 2 hn).2 hany) false hq
    rw [Bool.false_or, hma] at h4
    refine ⟨c, s', o', h2, h3, ?_⟩
    rcases h4 with ⟨h5, rfl, h6⟩ | ⟨h5, h6, rfl⟩
    · exact .tooLong (.inr ⟨hrep, rfl⟩) h1 h5 h6
    · exact .records (.inr ⟨hrep, rfl⟩) h1 h5 h6
  | wildcard x u =>
    rw [hrep] at hpl hq
    obtain ⟨m, rfl, hu5, hany⟩ := hpl
    have hn := given_labels hl hany
    obtain ⟨c, h1, h2⟩ := r.starred st fi hp.reads hn ((fi.own true _ u hn).2 hany) hu5 hq
    exact ⟨c, s, o, h1, r, .star hrep h2⟩
  | noData x =>
    rw [hrep] at hpl hq
    obtain ⟨m, rfl, hany⟩ := hpl
    have hn := given_labels hl hany
    obtain ⟨c, i, h1, h2, h3⟩ := r.denied st fi hp.reads hn ((fi.own false _ 6 hn).2 hany) (by omega) hq
    exact ⟨c, s, o, h1, r, .denial (.inl ⟨hrep, rfl⟩) h2 h3⟩
  | nxDomain x =>
    rw [hrep] at hpl hq
    obtain ⟨m, rfl, hany⟩ := hpl
    have hn := given_labels hl hany
    obtain ⟨c, i, h1, h2, h3⟩ := r.denied st fi hp.reads hn ((fi.own false _ 6 hn).2 hany) (by omega) hq
    exact ⟨c, s, o, h1, r, .denial (.inr ⟨hrep, rfl⟩) h2 h3⟩
  | refused =>
    rw [hrep] at hq
    refine ⟨_, s, o, ?_, r, .refused hrep⟩
    unfold answer
    rw [hq, Res.ok_bind]
    simp only [mapReply, Lookup.sent]
    rw [if_neg (by omega), e1, e2]
    simp only [Bool.false_eq_true, if_false]
    rw [show (5 : Int) = ((5 : Nat) : Int) from rfl, udperror_none k.id k.rd (by omega)]
    rfl
  | failure =>
    rw [hrep] at hq
    refine ⟨_, s, o, ?_, r, .failure hrep⟩
    unfold answer
    rw [hq, Res.ok_bind]
    simp only [mapReply, Lookup.sent]
    rw [if_neg (by omega), e1, e2]
    simp only [Bool.false_eq_true, if_false]
    rw [show (2 : Int) = ((2 : Nat) : Int) from rfl, udperror_none k.id k.rd (by omega)]
    rfl

end

section
variable {gs : List Given} {s : Big.Store} {A : Key → Option Big.Ent} {own : Key → List Nat} {L : List UInt8 → List (Nat × Nat)}

theorem own_any (inv : Big.Inv s A own L) (ag : Big.Agrees A gs) {star : Bool} {n : Name} {t : Nat} (hn : LabelsOk n) :
    own (base star n, t) ≠ [] ↔ gs.any (Given.at? star n t) = true := by
  rw [Ne, ← inv.none_iff, ag.ent star n t hn]
  unfold Big.entOf
  split
  · rename_i h; simp [h]
  · rename_i h; simp [h]

theorem fits_world (inv : Big.Inv s A own L) (ag : Big.Agrees A gs) (item : Nat → Rec) : Fits (worldOf item A own) gs where
  own star n t hn := own_any inv ag hn
  auth star n t hn hne := by
    have he := own_ent inv ag hn hne
    unfold worldOf
    dsimp only
    rw [he]
  tail star n t hn hne := by
    have he := own_ent inv ag hn hne
    unfold worldOf Shelf.servers
    dsimp only
    rw [he]
    dsimp only
    unfold Big.after
    dsimp only
    cases Given.homeOf gs star n t with
    | none => rfl
    | some z => rfl

theorem stores_hash (hl : Big.Loadable gs) (inv : Big.Inv s A own L) (ag : Big.Agrees A gs) {W : World} {v6 : Bool} {s0 : Srv} (hd : s0.dict = s.dict)
    (st : Stands W v6 s0.heap s0.dict) (fi : Fits W gs) : Lookup.Stores s0.hash (mapZone keyOf (Given.places gs)) := by
  have hrr : ∀ star n t, LabelsOk n → t < 65536 → Lookup.rrOf (s0.hash (enc (base star n, t))) =
      if gs.any (Given.at? star n t) then some (Given.mark gs star n t, keyOf (star, n, t)) else none := by
    intro star n t hn ht
    by_cases h255 : t = 255
    · subst h255
      have h0 : gs.any (Given.at? star n 255) = false := by
        rw [List.any_eq_false]
        intro x hx h
        rw [Big.at_iff] at h
        exact (hl.fit x hx).good.kind.1 h.2.2
      rw [h0]
      unfold Srv.hash
      rw [hd, inv.any]
      by_cases hL : L (base star n) = []
      · rw [if_pos hL]; rfl
      · rw [if_neg hL]; rfl
    · have hdk := st.dict (base star n, t) ht h255
      by_cases hne : W.own (base star n, t) = []
      · have : ¬ gs.any (Given.at? star n t) = true := fun h => (fi.own star n t hn).2 h hne
        rw [if_neg this]
        rw [hne] at hdk
        unfold Srv.hash
        rw [hdk]
        rfl
      · rw [if_pos ((fi.own star n t hn).1 hne)]
        obtain ⟨f, l, hol⟩ : ∃ f l, W.own (base star n, t) = f :: l := by
          cases h : W.own (base star n, t) with
          | nil => exact absurd h hne
          | cons f l => exact ⟨f, l, rfl⟩
        obtain ⟨p, hp, lk⟩ := st.looks (base star n, t) f (by rw [hol]; simp)
        rw [hol] at hdk
        rw [hash_rr s0 hdk, hp]
        simp only [Option.map_some, Lookup.rrOf]
        rw [lk.auth, fi.auth star n t hn hne]
        rfl
  have hli : ∀ star n, LabelsOk n → Lookup.isList (s0.hash (enc (base star n, 255))) = gs.any fun g => decide (g.star = star ∧ g.name = n) := by
    intro star n hn
    rw [← Big.view_list inv ag hn]
    unfold Srv.hash Big.view
    rw [hd, inv.any]
    by_cases hL : L (base star n) = []
    · rw [if_pos hL]; rfl
    · rw [if_neg hL]; rfl
  refine ⟨fun n t hn ht => ?_, fun n t hn ht => ?_, fun n hn => ?_, fun n hn => ?_, fun n hn => ?_, fun n hn h => ?_⟩
  · have := hrr false n t hn ht
    refine Eq.trans this ?_
    unfold mapZone Given.places
    dsimp only
    split <;> rfl
  · have := hrr true n t hn ht
    have h2 : enc (base true n, t) = 95 :: (encName n ++ Lookup.u16 t) := rfl
    rw [h2] at this
    rw [this]
    unfold mapZone Given.places
    dsimp only
    split <;> rfl
  · exact hli false n hn
  · exact hli true n hn
  · unfold mapZone Given.places
    dsimp only
    rw [if_neg]
    · rfl
    · rw [List.any_eq_true]
      rintro ⟨x, hx, h⟩
      exact (hl.fit x hx).good.kind.1 (Big.at_iff.1 h).2.2
  · have h : (gs.any fun g => decide (g.star = false ∧ g.name = n)) = true := h
    rw [List.any_eq_true] at h
    obtain ⟨x, hx, h2⟩ := h
    rw [decide_eq_true_iff] at h2
    rw [← h2.2]
    exact (hl.fit x hx).low

/-- The records on the shelf are those given. -/
theorem shelf_has (inv : Big.Inv s A own L) (ag : Big.Agrees A gs) {item : Nat → Rec}
    (hit : ∀ i star n t, LabelsOk n → i ∈ own (base star n, t) → (item i).Sound ∧ (item i).name = n ∧ (item i).type = t ∧ (item i).cls = be16 1 ∧
      (item i).rdata = Big.dataAt s i ∧ (item i).ttl = ttlAt s i) : (worldOf item A own).shelf.Has gs where
  recs star n t hn := by
    show (own (base star n, t)).map _ = _
    have h1 := own_sets inv ag hn (star := star) (t := t)
    have h2 : (Given.sets gs star n t).map (fun x => (n, x)) = ((Given.sets gs star n t).map (·.2)).map fun y => (n, t, y) := by
      rw [List.map_map]
      refine List.map_congr_left fun x hx => ?_
      obtain ⟨g, _, hat, _, rfl⟩ := Big.mem_sets.1 hx
      have := (Big.at_iff.1 hat).2.2
      simp [this]
    rw [h2, ← h1, List.map_map]
    refine List.map_congr_left fun i hi => ?_
    obtain ⟨_, h3, h4, _, h5, h6⟩ := hit i star n t hn hi
    show ((item i).name, (item i).type, (item i).rdata, (item i).ttl) = _
    rw [h3, h4, h5, h6]
    rfl
  ok star n t hn i hi := by
    obtain ⟨h1, _, _, h4, _⟩ := hit i star n t hn hi
    exact ⟨h1, h4⟩
  apart star n t star' n' t' hn hn' i hi hi' := by
    have := inv.disj _ _ _ hi hi'
    injection this with e1 e2
    obtain ⟨e3, e4⟩ := Big.base_inj hn hn' e1
    exact ⟨e3, e4, e2⟩
  nodup star n t hn := inv.nodup _

end

end Server
end Mara
