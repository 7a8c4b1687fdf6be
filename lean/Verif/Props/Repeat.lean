import Verif.Props.Chain
/-!
Property C127: how bytes get repeated. Once nothing is under way, a user has been given everything the proxy's task offered
for writing, counted once per attempt.
-/
namespace Wm.Virtual
open Wm Wm.Prot

/-- the bytes of the writes that had to wait, once for each time -/
def waited : List Obs → Bytes
  | .offered bs :: .writeWait :: t => bs ++ waited t
  | _ :: t => waited t
  | [] => []

theorem waited_skip {o : Obs} (ho : ∀ bs, o ≠ .offered bs) (t) : waited (o :: t) = waited t := by
  cases o <;> first | rfl | exact absurd rfl (ho _)

theorem waited_other {bs} {o : Obs} (ho : o ≠ .writeWait) (t) : waited (.offered bs :: o :: t) = waited (o :: t) := by
  cases o <;> first | rfl | exact absurd rfl ho

theorem waited_append (b : List Obs) : ∀ a : List Obs, (∀ c bs, a ≠ c ++ [.offered bs]) →
    waited (a ++ b) = waited a ++ waited b := by
  intro a
  induction a using waited.induct with
  | case1 bs t ih =>
    intro h
    rw [List.cons_append, List.cons_append, waited, waited, ih, List.append_assoc]
    intro c x e
    exact h (.offered bs :: .writeWait :: c) x (by rw [e]; rfl)
  | case2 o t hno ih =>
    intro h
    have ih := ih fun c x e => h (o :: c) x (by rw [e]; rfl)
    by_cases ho : ∃ bs, o = .offered bs
    · obtain ⟨bs, rfl⟩ := ho
      cases t with
      | nil => exact absurd rfl (h [] bs)
      | cons p t =>
        have hp : p ≠ .writeWait := fun e => hno bs t rfl (by rw [e])
        rw [List.cons_append, List.cons_append, waited_other hp, waited_other hp, ← List.cons_append, ih]
    · have ho' : ∀ bs, o ≠ .offered bs := fun bs e => ho ⟨bs, e⟩
      rw [List.cons_append, waited_skip ho', ih, waited_skip ho']
  | case3 => intro _; rfl

/-- every attempt to write was accepted or had to wait -/
theorem run_attempts (id : Nat) (es : List Event) :
    (offers (run id es).trace).length = (accepts (run id es).trace).length + (waited (run id es).trace).length ∧
    ∀ c bs, (run id es).trace ≠ c ++ [.offered bs] := by
  induction es using List.reverseRecOn with
  | nil => exact ⟨rfl, by simp [run, init]⟩
  | append_singleton es e ih =>
    rw [run_snoc]
    generalize run id es = s at *
    obtain ⟨h1, h2⟩ := ih
    have key : ∀ (s' : St) (u : List Obs), s'.trace = s.trace ++ u →
        (offers u).length = (accepts u).length + (waited u).length → (∀ c bs, u ≠ c ++ [.offered bs]) → u ≠ [] →
        (offers s'.trace).length = (accepts s'.trace).length + (waited s'.trace).length ∧
        ∀ c bs, s'.trace ≠ c ++ [.offered bs] := by
      intro s' u ht hu hl hne
      rw [ht, waited_append u _ h2]
      refine ⟨?_, fun c bs hc => ?_⟩
      · have e1 : offers (s.trace ++ u) = offers s.trace ++ offers u := by simp [offers]
        have e2 : accepts (s.trace ++ u) = accepts s.trace ++ accepts u := by simp [accepts]
        rw [e1, e2]
        simp only [List.length_append]
        omega
      · rcases List.append_eq_append_iff.1 hc with ⟨d, e1, e2⟩ | ⟨d, e1, e2⟩
        · exact hl d bs e2
        · cases d with
          | nil => exact hl [] bs (by simpa using e2.symm)
          | cons x d =>
            have h3 : [] = d ++ u := (List.cons.inj e2).2
            exact hne (List.append_eq_nil_iff.1 h3.symm).2
    have one : ∀ (s' : St) (o : Obs), s'.trace = s.trace ++ [o] →
        (match o with | .offered _ | .accepted _ | .sent _ | .writeWait => False | _ => True) →
        (offers s'.trace).length = (accepts s'.trace).length + (waited s'.trace).length ∧
        ∀ c bs, s'.trace ≠ c ++ [.offered bs] := by
      intro s' o ht ho
      refine key s' [o] ht ?_ ?_ (by simp)
      · cases o <;> simp_all [offers, accepts, waited]
      · intro c bs hc
        have := congrArg List.getLast? hc
        simp at this
        subst this
        exact ho
    cases e with
    | arrive f =>
      simp only [step]
      split
      · exact ⟨h1, h2⟩
      · exact one _ (.arrived f) rfl trivial
    | close => exact ⟨h1, h2⟩
    | read n =>
      simp only [step]
      cases pollRead_result n s with
      | wait _ _ _ _ _ _ h7 => exact one _ _ h7 trivial
      | bytes _ _ _ _ _ _ _ h7 => exact one _ _ h7 trivial
      | endClose _ _ _ _ _ _ _ h7 => exact one _ _ h7 trivial
      | endChan _ _ _ _ _ _ _ h7 => exact one _ _ h7 trivial
    | write bs o =>
      simp only [step, pollWrite]
      cases o
      case ready =>
        refine key _ [.offered bs, .sent (.data s.id (s.write ++ bs)), .accepted bs] (by simp [emit]) ?_ ?_ (by simp)
        · simp [offers, accepts, waited]
        · intro c x hc
          have := congrArg List.getLast? hc
          simp at this
      all_goals
        refine key _ [.offered bs, .writeWait] (by simp [emit]) ?_ ?_ (by simp)
        · simp [offers, accepts, waited]
        · intro c x hc
          have := congrArg List.getLast? hc
          simp at this
    | flush o =>
      simp only [step, pollFlush]
      split
      · exact one _ .flushed rfl trivial
      · cases o
        case ready =>
          refine key _ [.sent (.data s.id s.write), .flushed] (by simp [emit]) ?_ ?_ (by simp)
          · simp [offers, accepts, waited]
          · intro c x hc
            have := congrArg List.getLast? hc
            simp at this
        all_goals exact one _ .flushWait rfl trivial

end Wm.Virtual

namespace Wm.Chain
open Wm Wm.Prot
open scoped List
open Wm.Relay (inputs outputs)
open Wm.World (Cfg relay_all Delivered payload_datas)
open Wm.Tunnel (datas gots received accepted submissions)

/-- **C127** fails whenever a write of the proxy's task had to wait (C23): once nothing is under way from the task to its
    user, and no message was dropped at the client, the user has been given all that the task offered, attempt by attempt,
    hence more bytes than the task was told were written, by those of the writes that had to wait, once for each time. -/
theorem C127_waited_fails (cfg : Cfg) (es : List Event) (hn : Normal (run cfg es)) (u) (hu : u ∈ (run cfg es).users)
    (hfree : Free u.relay.id (run cfg es)) (t) (ht : t ∈ (run cfg es).tasks) (hti : t.io.id = u.relay.id)
    (k) (hk : u.handle = some k) (ho : ∀ d, .overflow k (.data u.relay.id d) ∉ (run cfg es).cli.trace)
    (hset : Delivered (run cfg es).srv (run cfg es).down (run cfg es).cli k)
    (hsend : t.io.write = []) (hrecv : u.relay.write = []) :
    outputs u.relay.trace = Virtual.offers t.io.trace ∧
    (outputs u.relay.trace).length = (Virtual.accepts t.io.trace).length + (Virtual.waited t.io.trace).length := by
  have hb := base_run cfg es
  have hf := hn.fit
  have hown := hfree.own hn
  have hfar := far_run cfg es u.relay.id hown hf
  have hgot := user_got hn hu hfree hk
  obtain ⟨t1, rest, hr, h1, h2⟩ := meets_run cfg es u.relay.id hown hf u hu rfl k hk
  generalize run cfg es = w at *
  obtain ⟨vs, hv⟩ := hb.tasks t ht
  have h5 : (datas t.io.id (Virtual.sends t.io.trace)).flatten = Virtual.offers t.io.trace := by
    obtain ⟨h1, _, h3, _⟩ := Virtual.run_winv t.io.id vs
    rw [← hv] at h1 h3
    rw [hsend, List.append_nil] at h1
    rw [← payload_datas h3, ← payload_same]
    exact h1
  have h6 := (Virtual.run_attempts t.io.id vs).1
  rw [← hv] at h6
  rw [← h6]
  suffices h : outputs u.relay.trace = Virtual.offers t.io.trace from ⟨h, congrArg _ h⟩
  rw [(relay_all (hb.users u hu)).2 hrecv, hgot, ← h5, hti, ← hfar.sub.of t.io (List.mem_map.2 ⟨t, ht, rfl⟩) hti]
  have e1 : datas u.relay.id (received k w.cli.trace) = datas u.relay.id (gots w.cli.trace) := by
    obtain ⟨es', he⟩ : ∃ x, w.cli = Tunnel.clientRun cfg.client [] x := hb.ends.cli
    have hwk := hset.working
    have hc := hset.channel
    rw [he] at hr hwk hc ho ⊢
    exact Tunnel.client_data_all cfg.client [] es' u.relay.id k t1 rest hr h1 h2 ho hwk hc.1 hc.2
  have e4 : datas u.relay.id (gots w.cli.trace) = datas u.relay.id (accepted w.srv.trace) :=
    World.seen_all_client hb.ends hf hset.network hset.outgoing.2 hset.working u.relay.id
  have e5 : datas u.relay.id (accepted w.srv.trace) = datas u.relay.id (Tunnel.relayed w.srv.trace) :=
    World.server_datas_eq hb.ends.srv u.relay.id
  have e7 : Tunnel.relayed w.srv.trace ++ w.srv.outq = submissions w.srv.trace := World.server_outq hb.ends.srv
  have e6 : w.srv.outq = [] := hset.outgoing.1
  rw [e6, List.append_nil] at e7
  rw [e1, e4, e5, e7]

/-- there are such executions: a write that had to wait once -/
example : let w := run plain ([.accept] ++ opening ++ List.replicate 100 (.otherS (.submit (.data 3 []))) ++
      [.task 0 (.write [7]), .srv .recv, .task 0 (.write [7])] ++ List.replicate 100 (.srv .recv) ++
      [.srv (.wrote 10000), .cli (.read 10000)] ++ hand)
    Normal w ∧ Free 1 w ∧ w.users.map (fun u => (u.relay.id, u.handle, u.relay.write)) = [(1, some 0, [])] ∧
    w.tasks.map (fun t => (t.io.id, t.io.write, Virtual.waited t.io.trace)) = [(1, [], [7])] ∧
    (w.cli.trace.all fun | .overflow _ _ => false | _ => true) = true ∧ Delivered w.srv w.down w.cli 0 := by
  refine ⟨normal_of ?_ ?_, free_of _ ?_, ?_, ?_, ?_, ⟨?_, ?_, ?_, ?_, ?_⟩⟩ <;> decide +kernel

end Wm.Chain
