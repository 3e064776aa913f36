import Verif.Deadwood.IncomingProps
import Verif.Deadwood.DissectFindings
import Verif.Spec.Trust
/-!
# Lemmas: what is kept of a message
-/

namespace Dw
namespace Trust
open DwStr Spec Dissect Incoming

/-- All that a reply can lead to, and what that is made of. -/
inductive Leads (bs qs : List (List UInt8)) (qtype : Nat) (p : Answers) (st : Step) : Prop
  | answer (a : List UInt8) (t : Int) (eq : st = ⟨[⟨encName qs ++ be16 qtype, a, t⟩], none, none⟩)
      (made : (∃ ks, ks.Sublist p.an ∧ a = (⟨ks, [], [], 0⟩ : Answers).packed.enc) ∨
        (p.an = [] ∧ a = (denial p).packed.enc) ∨
        (p.an = [] ∧ ∃ r ∈ p.ar, Alike qs r.name ∧ r.type = qtype ∧ a = (⟨[r], [], [], 0⟩ : Answers).packed.enc))
  | alias (ks : List Rec) (t : Int) (f : Option (List UInt8)) (eq : st = ⟨[⟨encName qs ++ be16 65394, aliases ks, t⟩], none, f⟩)
      (sub : ks.Sublist p.an) (five : ∀ r ∈ ks, r.type = 5) (hto : ∀ q, f = some q → ∃ n, q = n ++ be16 qtype)
  | refer (z : List (List UInt8)) (x : List UInt8) (t : Int) (ok : Spec.NameOk z) (lim : (encName z ++ x).length < 134217727) (may : MayDelegate bs qs z)
      (del : ∃ r ∈ p.ns, r.name = z ∧ (r.type = 2 ∨ r.type = 6))
      (eq : st = ⟨[], some (encName z ++ x), none⟩ ∨ st = ⟨[⟨encName z ++ be16 65395, encName z ++ x, t⟩], some (encName z ++ x), none⟩)
  | blank (t : Int) (eq : st = ⟨[⟨encName [] ++ be16 65395, [0, 16], t⟩], some [0, 16], none⟩)

theorem reply_leads (cfg : Times) {ns : DwStr} {bs : List (List UInt8)} (hs : Servers ns bs) (up : Bool)
    {query inp : DwStr} {qs : List (List UInt8)} {qtype : Nat} (hq : Asks query qs qtype)
    {p : Answers} (hr : Reply inp p) (few : p.ns.length ≤ 15) (ttl : Int) (junk : List UInt8) {st : Step}
    (h : cacheReply cfg ns up query inp ttl junk = .ok st) : Leads bs qs qtype p st := by
  rcases cacheReply_zone cfg hs up query inp ttl junk with e1 | e1
  · rw [e1] at h; cases h
  rw [e1] at h
  rcases dissect_makes hr hq (nameStr_zone hs.name junk) junk with e2 | ⟨o, e2, ho, hm⟩
  · rw [e2] at h; cases h
  rw [e2, Res.ok_bind] at h
  cases hm with
  | answer kept some sub cls types eq =>
    rw [finish_answer cfg up query _ junk ho eq (.inl rfl), hq.contents] at h
    cases h
    exact .answer _ _ rfl (.inl ⟨kept, sub, rfl⟩)
  | «alias» cs r _ sub types eq =>
    have hp : ∀ x ∈ cs ++ [r], x.Plain := fun x hx => hr.recs x (by simp [Answers.all, sub.subset hx])
    have h1 := alias_size (cs ++ [r]) hp types
    have h2 := sizes_sublist sub
    have h3 : sizes (p.an.map Rec.toRR) ≤ sizes (p.all.map Rec.toRR) := sizes_sublist (by simp [Answers.all])
    have hsz := hr.size
    obtain ⟨-, -, ht'⟩ := oneName_form (hp r (by simp)) (.inr (types r (by simp)))
    rcases finish_alias cfg up hq (keepTtl cfg ttl) junk ho ht' (by omega) eq with ⟨-, e3⟩ | ⟨-, f, e3, e4, -⟩
    · rw [e3] at h; cases h
    · rw [e3] at h; cases h
      exact .alias (cs ++ [r]) _ f (by rw [eq]) sub types (by
        intro q hf
        rcases e4 with e4 | e4
        · rw [e4] at hf; cases hf
        · rw [e4] at hf; cases hf; exact ⟨_, rfl⟩)
  | denial r rest hn hf h6 eq =>
    rw [finish_answer cfg up query _ junk ho eq (by unfold negative; dsimp only; split <;> simp), hq.contents] at h
    cases h
    exact .answer _ _ rfl (.inr (.inl ⟨hn, rfl⟩))
  | extra r hn mem right cls eq =>
    rw [finish_answer cfg up query _ junk ho eq (.inl rfl), hq.contents] at h
    cases h
    exact .answer _ _ rfl (.inr (.inr ⟨hn, r, mem, right.1, right.2, rfl⟩))
  | refer hnone x y z ok zone eq last =>
    obtain ⟨r, hr', hz, ht, hd⟩ := candidate_few few zone
    have hlim : (encName z ++ x).length < 134217727 := by
      rw [← eq, ho.clen]; have := ho.lt; have := ho.lim; omega
    rcases finish_refer cfg up query (keepTtl cfg ttl) junk ho ok eq last with ⟨-, e3⟩ | ⟨-, e3 | e3⟩
    · rw [e3] at h; cases h
    · rw [e3] at h; cases h
      exact .refer z x 0 ok hlim hd ⟨r, hr', hz, ht⟩ (.inl (by rw [eq]))
    · rw [e3] at h; cases h
      exact .refer z x _ ok hlim hd ⟨r, hr', hz, ht⟩ (.inr (by rw [eq]))
  | blank hnone eq =>
    have hok : Spec.NameOk [] := ⟨by simp [LabelsOk], by decide⟩
    cases up with
    | true =>
      rcases finish_refer cfg true query (keepTtl cfg ttl) junk ho hok (x := [16]) (y := [0]) eq eq with ⟨-, e3⟩ | ⟨hc, -⟩
      · rw [e3] at h; cases h
      · cases hc
    | false =>
      rw [finish_refer' cfg query (keepTtl cfg ttl) junk ho hok (by simp) (x := [16]) (y := [0]) eq eq] at h
      cases h
      exact .blank _ (by rw [eq])

theorem sameRecs_sublist : ∀ {as bs ks : List Rec}, SameRecs as bs → ks.Sublist bs → ∃ rs, rs.Sublist as ∧ SameRecs rs ks
  | [], [], ks, _, h => by
    obtain rfl := List.sublist_nil.1 h
    exact ⟨[], .slnil, trivial⟩
  | [], _ :: _, _, h, _ => h.elim
  | _ :: _, [], _, h, _ => h.elim
  | a :: as, b :: bs, ks, ⟨h1, h2⟩, h => by
    cases h with
    | cons _ h =>
      obtain ⟨rs, e1, e2⟩ := sameRecs_sublist h2 h
      exact ⟨rs, .cons _ e1, e2⟩
    | cons_cons _ h =>
      obtain ⟨rs, e1, e2⟩ := sameRecs_sublist h2 h
      exact ⟨a :: rs, .cons_cons _ e1, h1, e2⟩

theorem sameRecs_mem : ∀ {as bs : List Rec}, SameRecs as bs → ∀ k ∈ bs, ∃ r ∈ as, SameRec r k
  | [], [], _, k, h => by simp at h
  | [], _ :: _, h, _, _ => h.elim
  | _ :: _, [], h, _, _ => h.elim
  | a :: as, b :: bs, ⟨h1, h2⟩, k, h => by
    rcases List.mem_cons.1 h with rfl | h
    · exact ⟨a, by simp, h1⟩
    · obtain ⟨r, hr, e⟩ := sameRecs_mem h2 k h
      exact ⟨r, by simp [hr], e⟩

theorem sameRecs_mem' : ∀ {as bs : List Rec}, SameRecs as bs → ∀ r ∈ as, ∃ k ∈ bs, SameRec r k
  | [], [], _, k, h => by simp at h
  | [], _ :: _, h, _, _ => h.elim
  | _ :: _, [], h, _, _ => h.elim
  | a :: as, b :: bs, ⟨h1, h2⟩, k, h => by
    rcases List.mem_cons.1 h with rfl | h
    · exact ⟨b, by simp, h1⟩
    · obtain ⟨r, hr, e⟩ := sameRecs_mem' h2 k h
      exact ⟨r, by simp [hr], e⟩

theorem sameName_below {a b z : List (List UInt8)} (h : SameName a b) (hb : Below a z) : Below b z := by
  unfold SameName at h
  unfold Below at *
  rw [← h]; exact hb

/-- What is kept of a message. -/
structure Keeps (bs : List (List UInt8)) (m : Msg) (st : Step) : Prop where
  puts : ∀ e ∈ st.puts,
    (e.key = encName (lowered m.qname) ++ be16 m.qtype ∧ m.Answers e.value ∧ st.ns = none) ∨
    (e.key = encName (lowered m.qname) ++ be16 65394 ∧ m.Aliases e.value ∧ st.ns = none) ∨
    (∃ z x, Spec.NameOk z ∧ MayDelegate bs m.qname z ∧ m.Delegates z ∧ e.key = encName z ++ be16 65395 ∧
      e.value = encName z ++ x ∧ e.value.length < 134217727) ∨
    (e.key = encName [] ++ be16 65395 ∧ e.value = [0, 16])
  next : ∀ l, st.ns = some l → (l = [0, 16] ∧ st.puts ≠ []) ∨
    ∃ z x, Spec.NameOk z ∧ MayDelegate bs m.qname z ∧ m.Delegates z ∧ l = encName z ++ x ∧ l.length < 134217727
  follow : ∀ q, st.follow = some q → ∃ e n, st.puts = [e] ∧ e.key = encName (lowered m.qname) ++ be16 65394 ∧ m.Aliases e.value ∧
    q = n ++ be16 m.qtype

theorem packet_keeps (cfg : Times) (filter : Bool) (blocked : List UInt8 → Bool) {ns : DwStr} {bs : List (List UInt8)}
    (hs : Servers ns bs) (up : Bool) {m : Msg} (hp : m.Plain) {c spare : List UInt8} (h3 : 3 ≤ spare.length)
    (hc : c.length < 65536) (hf : m.From c) (few : m.ns.length ≤ 15) (junk : List UInt8) {st : Step}
    (h : cacheDnsReply cfg filter blocked ns up (c ++ spare) c.length junk = .ok (.step st)) : Keeps bs m st := by
  by_cases h2 : m.rcode = 2
  · rw [packet_failed cfg filter blocked ns up hp h2 hc hf junk] at h; cases h
  obtain ⟨o, inp, p', Q, plen, qlen, same, hrep, uo, hr, hd, h7, hask, e⟩ := incoming_eq cfg filter blocked ns up hp h2 h3 hc hf junk
  rw [e] at h
  split at h
  · cases h
  cases h1 : replyTtl cfg o inp with
  | err => rw [h1] at h; cases h
  | ub => rw [h1] at h; cases h
  | ok t =>
    rw [h1, Res.ok_bind] at h
    cases h4 : cacheReply cfg ns up (Remote.dstr (encName (lowered m.qname) ++ be16 m.qtype)) inp t junk with
    | err => rw [h4] at h; cases h
    | ub => rw [h4] at h; cases h
    | ok st' =>
      rw [h4, Res.ok_bind] at h
      cases h
      have hns : SameRecs m.ns p'.ns := same.ns
      have few' : p'.ns.length ≤ 15 := by rw [← sameRecs_length hns]; exact few
      have hlow : SameName m.qname (lowered m.qname) := by
        unfold SameName lowered
        simp [Function.comp_def, lower_idem]
      have hlow' : SameName (lowered m.qname) m.qname := Eq.symm hlow
      have hal : ∀ r k, SameRec r k → Alike (lowered m.qname) k.name → Alike m.qname r.name := by
        intro r k hk ⟨a1, a2⟩
        refine ⟨?_, ?_⟩
        · have := hk.name
          unfold SameName at *
          rw [hlow, a1, this]
        · have : cost (lowered m.qname) = cost m.qname := by
            unfold cost lowered; simp [Function.comp_def]
          rw [← this]; exact a2
      have hdel : ∀ z, (∃ r ∈ p'.ns, r.name = z ∧ (r.type = 2 ∨ r.type = 6)) → m.Delegates z := by
        rintro z ⟨r, hr, hz, ht⟩
        obtain ⟨r0, hr0, hsr⟩ := sameRecs_mem hns r hr
        exact ⟨r0, hr0, by rw [← hz]; exact hsr.name, by rw [hsr.type]; exact ht⟩
      have hmay : ∀ z, MayDelegate bs (lowered m.qname) z → MayDelegate bs m.qname z := fun z hz =>
        ⟨hz.1, sameName_below hlow' hz.2⟩
      cases reply_leads cfg hs up hask hrep few' t junk h4 with
      | answer a t eq made =>
        subst eq
        refine ⟨?_, (by intro l hl; cases hl), by intro q hne; cases hne⟩
        intro e he
        simp only [List.mem_singleton] at he
        subst he
        refine .inl ⟨rfl, ?_, rfl⟩
        rcases made with ⟨ks, hk, ha⟩ | ⟨hn, ha⟩ | ⟨hn, r, hr', ha, ht, hv⟩
        · obtain ⟨rs, e1, e2⟩ := sameRecs_sublist same.an hk
          exact .inl ⟨rs, ks, e1, e2, ha⟩
        · have hmn : m.an = [] := by
            have := sameRecs_length same.an
            rw [hn] at this
            exact List.length_eq_zero_iff.1 this
          refine .inr (.inl ⟨hmn, denial p', ?_, ha⟩)
          exact ⟨trivial, sameRecs_filter (fun r r' h => by rw [h.type]) same.ns,
            sameRecs_filter (fun r r' h => by unfold Rec.isAddr; rw [h.type]) same.ar, by simp only [denial, same.kind]⟩
        · have hmn : m.an = [] := by
            have := sameRecs_length same.an
            rw [hn] at this
            exact List.length_eq_zero_iff.1 this
          obtain ⟨r0, hr0, hsr⟩ := sameRecs_mem same.ar r hr'
          exact .inr (.inr ⟨hmn, r0, hr0, hal r0 r hsr ha, by rw [hsr.type]; exact ht, r, hsr, hv⟩)
      | «alias» ks t f eq sub five hto =>
        subst eq
        have hal : m.Aliases (aliases ks) := by
          obtain ⟨rs, e1, e2⟩ := sameRecs_sublist same.an sub
          refine ⟨rs, ks, e1, ?_, e2, rfl⟩
          intro r hr'
          obtain ⟨k, hk, hsr⟩ := sameRecs_mem' e2 r hr'
          rw [hsr.type]; exact five k hk
        refine ⟨?_, (by intro l hl; cases hl), fun q hq => ?_⟩
        · intro e he
          simp only [List.mem_singleton] at he
          subst he
          exact .inr (.inl ⟨rfl, hal, rfl⟩)
        · obtain ⟨n, hn⟩ := hto q hq
          exact ⟨_, n, rfl, rfl, hal, hn⟩
      | refer z x t ok lim may del eq =>
        rcases eq with eq | eq
        · subst eq
          exact ⟨by intro e he; simp at he, fun l hl => by
            cases hl; exact .inr ⟨z, x, ok, hmay z may, hdel z del, rfl, lim⟩, by intro q hne; cases hne⟩
        · subst eq
          refine ⟨?_, fun l hl => by cases hl; exact .inr ⟨z, x, ok, hmay z may, hdel z del, rfl, lim⟩, by intro q hne; cases hne⟩
          intro e he
          simp only [List.mem_singleton] at he
          subst he
          exact .inr (.inr (.inl ⟨z, x, ok, hmay z may, hdel z del, rfl, rfl, lim⟩))
      | blank t eq =>
        subst eq
        refine ⟨?_, fun l hl => by cases hl; exact .inl ⟨rfl, by simp⟩, by intro q hne; cases hne⟩
        intro e he
        simp only [List.mem_singleton] at he
        subst he
        exact .inr (.inr (.inr ⟨rfl, rfl⟩))

end Trust
end Dw
