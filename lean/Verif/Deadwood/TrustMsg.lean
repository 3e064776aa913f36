import Verif.Deadwood.TrustRun
/-!
# Lemmas: what may be believed when all packets are messages
-/

namespace Dw
namespace Trust
open DwStr Spec Dissect Incoming
open Acl (rd wr)

/-- What is needed of a message. -/
def IsMsg (c : List UInt8) : Prop := c.length < 65536 ∧ ∃ m : Msg, m.Plain ∧ m.From c ∧ m.ns.length ≤ 15

theorem plain_type {m : Msg} (hp : m.Plain) : m.qtype < 65536 ∧ m.qtype ≠ 65394 ∧ m.qtype ≠ 65395 := by
  have := hp.qtype; omega

theorem Came.message {cfg : Cfg} {c spare a0 query l junk : List UInt8} {count : Nat} {up : Bool} {st : Step}
    (h : Came cfg c spare a0 count query l up junk st) {m : Msg} (hm : m.Plain) (hf : m.From c) :
    Asked query (lowered m.qname) m.qtype := by
  refine ⟨lowered_ok hm.qname, (plain_type hm).1, ?_⟩
  have := question_at hm hf.front (packet := a0) (spare := spare) (len := count) h.rest.symm h.le h.len h.max
  rw [h.question] at this
  exact Res.ok.inj this

/-- Servers of a zone below may not delegate what those above may not. -/
theorem MayDelegate.up {z z0 q z' : List (List UInt8)} (hzz : Below z z0) (h : MayDelegate z q z') : MayDelegate z0 q z' := by
  obtain ⟨⟨u1, u2⟩, u3⟩ := h
  refine ⟨⟨below_trans u1 hzz, ?_⟩, u3⟩
  intro hsame
  apply u2
  have l1 := below_length u1
  have l2 := below_length hzz
  have l3 : z0.length = z'.length := by
    unfold SameName at hsame
    simpa using congrArg List.length hsame
  unfold Below at u1
  have : z.map (·.map lower) = z'.map (·.map lower) := List.IsSuffix.eq_of_length u1 (by simp; omega)
  exact this

theorem sameName_lowered (n : List (List UInt8)) : SameName (lowered n) n := by
  unfold SameName lowered
  simp [Function.comp_def, lower_idem]

theorem msg_taken {cfg : Cfg} {conf : Conf} {c spare a0 query l junk : List UInt8} {count : Nat} {up : Bool} {st : Step}
    (hr : IsMsg c) (h : Came cfg c spare a0 count query l up junk st) {q : List (List UInt8)} {t : Nat} (ha : Asked query q t)
    {heard : Log} {z z0 : List (List UInt8)} {from_ : List UInt8} (hs : Servers (Remote.dstr l) z) (hbz : Below q z)
    (hz0 : Trusted conf heard z0 from_) (hzz : Below z z0) :
    Taken (Trusted conf ((from_, c) :: heard)) (Aliased conf ((from_, c) :: heard)) (Answered conf ((from_, c) :: heard) (Joins cfg))
      z q t st := by
  obtain ⟨hlen, m, hm, hf, few⟩ := hr
  have hask := h.message hm hf
  obtain ⟨rfl, rfl⟩ := key_inj ha.1 hask.1 ha.2.1 hask.2.1 (ha.2.2.symm.trans hask.2.2)
  have hlow := sameName_lowered m.qname
  have K : Keeps z m st := packet_keeps cfg.times cfg.filter cfg.blocked hs up hm h.three hlen hf few junk h.step
  have hasked : Below m.qname z0 := below_trans (sameName_below hlow hbz) hzz
  have hz0' : Trusted conf ((from_, c) :: heard) z0 from_ := hz0.mono fun x hx => List.mem_cons_of_mem _ hx
  have hjudged : ∀ z' x, MayDelegate z m.qname z' → m.Delegates z' → Trusted conf ((from_, c) :: heard) z' (encName z' ++ x) :=
    fun z' x h2 h3 => .referred hz0' (List.mem_cons_self ..) hf hasked (MayDelegate.up hzz h2) h3
  have hHeard : Heard conf ((from_, c) :: heard) (lowered m.qname) m.qtype m :=
    ⟨z0, from_, c, hz0', below_trans hbz hzz, List.mem_cons_self .., hf, rfl, rfl⟩
  refine ⟨?_, ?_, ?_⟩
  · intro e he
    rcases K.puts e he with ⟨e1, e2, -⟩ | ⟨e1, e2, -⟩ | ⟨z', x, e1, e2, e3, e4, e5, e6⟩ | e
    · exact .inl ⟨e1, .told hHeard e2⟩
    · exact .inr (.inl ⟨e1, _, m, hHeard, e2⟩)
    · exact .inr (.inr (.inl ⟨z', x, e1, by rw [e5]; exact hjudged z' x e2 e3, e4, e5, e6⟩))
    · exact .inr (.inr (.inr e))
  · intro l' hl'
    rcases K.next l' hl' with ⟨e, -⟩ | ⟨z', x, e1, e2, e3, e4, e5⟩
    · exact .inl e
    · exact .inr ⟨z', x, e1, by rw [e4]; exact hjudged z' x e2 e3, e2.1.1, sameName_below (Eq.symm hlow) e2.2, e4, e5⟩
  · intro q' hq'
    obtain ⟨e, n, e1, -, e3, e4⟩ := K.follow q' hq'
    exact ⟨e, n, e1, ⟨_, m, hHeard, e3⟩, e4⟩

/-- Lists, aliases and answers as `Trusted`, `Aliased` and `Answered` say. -/
def msgBelief (cfg : Cfg) (conf : Conf) : Belief cfg where
  trusted := Trusted conf
  aliased := Aliased conf
  answered := fun h => Answered conf h (Joins cfg)
  readable := IsMsg
  trusted_mono := fun hh _ _ h => h.mono hh
  aliased_mono := fun hh _ _ h => h.mono hh
  answered_mono := fun hh _ _ _ h => h.mono hh
  joined := fun h h' h'' => .joined h h' h''
  asked := fun hr h => by
    obtain ⟨-, m, hm, hf, -⟩ := hr
    exact ⟨_, _, h.message hm hf, (plain_type hm).2⟩
  taken := fun hr h _ _ ha _ _ _ _ hs hb ht hz => msg_taken hr h ha hs hb ht hz

end Trust
end Dw
