import Verif.Model.Pass
import Verif.Props.Target
import Verif.Props.Answer
import Verif.Props.Helper
import Mathlib.Data.List.Forall2
/-! Properties C182, C183, C208: the requests and answers that are handed on, with all their headers. -/
namespace Wm.Pass
open Wm Wm.Config Wm.Helper Wm.Target Wm.Answer

/-! ### C182: what an upstream server gets -/

/-- the values of a header -/
def Ext.valuesOf (x : Ext) (name : Text) (hs : List (Text × Text)) : List Text :=
  (hs.filter fun e => x.ins.same name e.1).map (·.2)

/-- the headers other than `Host`, in order -/
def Ext.apartHost (x : Ext) (hs : List (Text × Text)) : List (Text × Text) :=
  hs.filter fun e => !x.ins.same "host".toList e.1

/-- the same request, apart from the header `Host` -/
structure Ext.SameBut (x : Ext) (a b : Request) : Prop where
  line : a.line = b.line
  body : a.body = b.body
  headers : x.apartHost a.headers = x.apartHost b.headers

theorem proxyStep_sent (x : Ext) (l : Place) (kept : Option Dial) (req : Request) (t : Turn) (s : Sent)
    (h : (proxyStep x l kept req t).2.1 = some s) :
    (∃ d, kept = some d ∧ s = ⟨d.host, d.port, req⟩) ∨
    (kept = none ∧ ∃ d, httpDial x.target t.pick l.groups t.scheme l.url = .ok d ∧
      s = ⟨d.host, d.port, { req with headers := x.ins.insert "host".toList (x.text d.hostHeader) req.headers }⟩) := by
  cases kept with
  | some d =>
    left
    refine ⟨d, rfl, ?_⟩
    simp only [proxyStep] at h
    cases hc : t.closed <;> cases ha : t.came <;> simp_all
  | none =>
    right
    refine ⟨rfl, ?_⟩
    simp only [proxyStep, proxyFresh] at h
    cases hd : httpDial x.target t.pick l.groups t.scheme l.url with
    | panic => simp [hd] at h
    | err e => simp [hd] at h
    | ok d =>
      refine ⟨d, rfl, ?_⟩
      simp only [hd] at h
      cases hr : t.reach with
      | false => simp [hr] at h
      | true => cases ha : t.came <;> simp_all

/-- **C182**, partial: in every run, whatever servers are picked, connections made, kept and lost: each request that is
    handed to an upstream server is the client's — its line, its body and its headers, in order —, apart from the header
    `Host`.
    Missing: the location's rules for requests are not applied (`C182_rules_fails`), and `Host` (`C182_host_fails`). -/
theorem C182_same_partial (x : Ext) (l : Place) (kept : Option Dial) (reqs : List (Request × Turn)) :
    List.Forall₂ (fun r a => ∀ s, a.1 = some s → x.SameBut s.req r.1) reqs (proxyRun x l kept reqs) := by
  induction reqs generalizing kept with
  | nil => exact .nil
  | cons r rest ih =>
    refine .cons ?_ (ih _)
    intro s hs
    rcases proxyStep_sent x l kept r.1 r.2 s hs with ⟨d, _, rfl⟩ | ⟨_, d, _, rfl⟩
    · exact ⟨rfl, rfl, rfl⟩
    · exact ⟨rfl, rfl, x.ins.others _ _ _⟩

/-- **C182** fails: the rules for requests that are configured for a location — such as `proxy x-forward-for {client_ip}` in
    the example configuration — have no effect: whatever the rules, a header (other than `Host`) that the client did not send
    is in no request handed to an upstream server, and all requests are those without any rules. -/
theorem C182_rules_fails (x : Ext) (l : Place) (kept : Option Dial) (reqs : List (Request × Turn)) :
    (∀ name, (∀ n, x.ins.same name n = true → x.ins.same "host".toList n = false) →
      (∀ r ∈ reqs, x.valuesOf name r.1.headers = []) →
      ∀ a ∈ proxyRun x l kept reqs, ∀ s, a.1 = some s → x.valuesOf name s.req.headers = []) ∧
    (proxyRun x l kept reqs).map (·.1) = (proxyRun x { l with rules := [] } kept reqs).map (·.1) := by
  constructor
  · intro name hname hr a ha s hs
    have hsame := C182_same_partial x l kept reqs
    have hlen := hsame.length_eq
    obtain ⟨i, hi, rfl⟩ := List.getElem_of_mem ha
    have hi' : i < reqs.length := by omega
    have h := (List.forall₂_iff_get.1 hsame).2 i hi' hi s (by simpa using hs)
    have hno := hr reqs[i] (List.getElem_mem _)
    have hf : ∀ hs : List (Text × Text), (hs.filter fun e => x.ins.same name e.1) =
        (x.apartHost hs).filter fun e => x.ins.same name e.1 := by
      intro hs
      rw [Ext.apartHost, List.filter_filter]
      refine List.filter_congr fun e _ => ?_
      cases he : x.ins.same name e.1 with
      | false => simp
      | true => rw [hname e.1 he]; rfl
    rw [Ext.valuesOf, hf, h.headers, List.get_eq_getElem, ← hf]
    exact hno
  · induction reqs generalizing kept with
    | nil => rfl
    | cons r rest ih =>
      have h1 : (proxyStep x l kept r.1 r.2).1 = (proxyStep x { l with rules := [] } kept r.1 r.2).1 ∧
          (proxyStep x l kept r.1 r.2).2.1 = (proxyStep x { l with rules := [] } kept r.1 r.2).2.1 := by
        cases kept with
        | some d => exact ⟨rfl, rfl⟩
        | none =>
          simp only [proxyStep, proxyFresh]
          cases httpDial x.target r.2.pick l.groups r.2.scheme l.url <;> dsimp only
          · cases r.2.reach <;> cases r.2.came <;> exact ⟨rfl, rfl⟩
          · exact ⟨rfl, rfl⟩
          · exact ⟨rfl, rfl⟩
      simp only [proxyRun, List.map_cons]
      rw [h1.2, h1.1, ih]

/-- **C182** fails for `Host`: of requests of one client's connection to one location, the first goes with the upstream
    server's address as its only `Host`, whatever the client sent, and the others — to the same server — with what the client
    sent. -/
theorem C182_host_fails (x : Ext) (l : Place) (req : Request) (t : Turn) (d : Dial) (r : Reply) (hreach : t.reach = true)
    (hd : httpDial x.target t.pick l.groups t.scheme l.url = .ok d) (hr : t.came = .answer r)
    (rest : List (Request × Turn)) (hrest : ∀ q ∈ rest, q.2.closed = false ∧ ∃ a, q.2.came = .answer a) :
    ∃ s, (proxyRun x l none ((req, t) :: rest)).map (·.1) =
        some s :: rest.map (fun q => some ⟨s.host, s.port, q.1⟩) ∧
      x.valuesOf "host".toList s.req.headers = [x.text d.hostHeader] := by
  refine ⟨⟨d.host, d.port, { req with headers := x.ins.insert "host".toList (x.text d.hostHeader) req.headers }⟩, ?_,
    x.ins.one _ _ _⟩
  have hk : ∀ rest : List (Request × Turn), (∀ q ∈ rest, q.2.closed = false ∧ ∃ a, q.2.came = .answer a) →
      (proxyRun x l (some d) rest).map (·.1) = rest.map (fun q => some ⟨d.host, d.port, q.1⟩) := by
    intro rest
    induction rest with
    | nil => intro _; rfl
    | cons q rest ih =>
      intro hq
      obtain ⟨hc, a, ha⟩ := hq q (by simp)
      simp only [proxyRun, proxyStep, hc, ha, List.map_cons]
      rw [if_neg (by simp), ih fun q' h' => hq q' (by simp [h'])]
  simp only [proxyRun, proxyStep, proxyFresh, hd, hreach, hr, List.map_cons]
  rw [if_neg (by simp), hk rest hrest]

/-! ### C208: what the client gets -/

/-- **C208** In every run of a client's connection, whatever servers are picked, connections made, kept and lost: an answer
    served to the client is the answer of an upstream server that was handed this very request, with the same status and
    body, and with the same headers but for the location's rules for answers; a request whose server answers is answered so;
    and what the proxy answers itself is 404, if the kept connection was closed before the request was handed on, or 503, if
    it ended after that. An error comes of a server that cannot be connected to, or that was handed the request and did not
    answer; a crash only of settings of which C117 says so. -/
theorem C208_answer (x : Ext) (l : Place) (kept : Option Dial) (reqs : List (Request × Turn)) :
    List.Forall₂ (fun r a =>
      (∀ b, a.2 = .served b → ∃ s c, a.1 = some s ∧ r.2.came = .answer c ∧ b.status = c.status ∧ b.body = c.body ∧
        (b.headers = c.headers ∨ b.headers = rewriteAll x.hdr false l.rules c.headers)) ∧
      (∀ s c, a.1 = some s → r.2.came = .answer c → ∃ b, a.2 = .served b) ∧
      (∀ n, a.2 = .notice n → n = 404 ∧ a.1 = none ∧ r.2.closed = true ∨
        n = 503 ∧ a.1 ≠ none ∧ r.2.closed = false ∧ r.2.came = .gone) ∧
      (a.2 = .err → (a.1 = none ∧ (r.2.reach = false ∨ ∃ e, httpDial x.target r.2.pick l.groups r.2.scheme l.url = .err e)) ∨
        (a.1 ≠ none ∧ ∀ c, r.2.came ≠ .answer c)) ∧
      (a.2 = .panic → a.1 = none ∧ httpDial x.target r.2.pick l.groups r.2.scheme l.url = .panic))
      reqs (proxyRun x l kept reqs) := by
  induction reqs generalizing kept with
  | nil => exact .nil
  | cons r rest ih =>
    refine .cons ?_ (ih _)
    obtain ⟨req, t⟩ := r
    dsimp only
    cases kept with
    | some d =>
      simp only [proxyStep]
      cases hc : t.closed <;> cases ha : t.came <;> simp
    | none =>
      simp only [proxyStep, proxyFresh]
      cases hd : httpDial x.target t.pick l.groups t.scheme l.url <;> dsimp only
      · cases hr : t.reach <;> cases ha : t.came <;> simp [hr, ha]
      · simp
      · simp

/-! ### C183: the rules of a mapping of mode `proxy` -/

/-- **C183** Whatever the rules of the mapping, in every run of a connection: each request handed to a target is the
    client's with the rules for requests applied, once — without the header `Proxy-Authorization` if that was checked —, and
    each answer of the target comes back with the rules for answers applied, once. -/
theorem C183_rules (v : View) (u p : Option Text) (rules : List HeaderRule) (st : HttpProxy.St)
    (reqs : List (Request × Bool × Came)) :
    List.Forall₂ (fun r a =>
      (∀ f ∈ a.1, f.2.line = r.1.line ∧ f.2.body = r.1.body ∧
        (f.2.headers = rewriteAll v.hdr true rules r.1.headers ∨ u.isSome ∧ p.isSome ∧
          f.2.headers = v.hdr.remove "Proxy-Authorization".toList (rewriteAll v.hdr true rules r.1.headers))) ∧
      ∀ b, a.2 = .served b → ∃ c, r.2.2 = .answer c ∧ b.status = c.status ∧ b.body = c.body ∧
        b.headers = rewriteAll v.hdr false rules c.headers)
      reqs (relayRun v u p (some rules) st reqs) := by
  induction reqs generalizing st with
  | nil => exact .nil
  | cons r rest ih =>
    obtain ⟨req, reach, came⟩ := r
    refine .cons ⟨?_, ?_⟩ (ih _)
    · intro f hf
      simp only [relayStep, List.mem_map] at hf
      obtain ⟨g, _, rfl⟩ := hf
      dsimp only
      split
      · rename_i hc
        simp only [Bool.and_eq_true] at hc
        exact ⟨rfl, rfl, Or.inr ⟨hc.1.2, hc.2, rfl⟩⟩
      · exact ⟨rfl, rfl, Or.inl rfl⟩
    · intro b hb
      simp only [relayStep] at hb
      split at hb
      · rename_i a _ hc
        cases hb
        exact ⟨_, rfl, rfl, rfl, rfl⟩
      all_goals cases hb

/-- **C183** (all of them) Without credentials, every request of a connection that is not CONNECT and whose target is reached
    and answers is handed on — the first to the target it names — and answered by it, with the rules applied both ways; so
    are those that follow. -/
theorem C183_served (v : View) (rules : List HeaderRule) (h : Text) (st : HttpProxy.St) (hst : st.kept = none ∨ st.kept = some h)
    (reqs : List (Request × Bool × Came))
    (hall : ∀ q ∈ reqs, q.2.1 = true ∧ (∃ a, q.2.2 = .answer a) ∧
      v.host { q.1 with headers := rewriteAll v.hdr true rules q.1.headers } = some h ∧
      v.connect { q.1 with headers := rewriteAll v.hdr true rules q.1.headers } = false) :
    List.Forall₂ (fun r a => a.1 = [(h, { r.1 with headers := rewriteAll v.hdr true rules r.1.headers })] ∧
      ∃ c, r.2.2 = .answer c ∧ a.2 = .served { c with headers := rewriteAll v.hdr false rules c.headers })
      reqs (relayRun v none none (some rules) st reqs) := by
  induction reqs generalizing st with
  | nil => exact .nil
  | cons r rest ih =>
    obtain ⟨req, reach, came⟩ := r
    obtain ⟨hr, ⟨a, ha⟩, hh, hc⟩ := hall _ (List.mem_cons_self ..)
    dsimp only at hr ha hh hc
    subst hr ha
    have hk : (relayStep v none none (some rules) st req true (.answer a)).1.kept = some h := by
      rcases hst with h0 | h1
      · simp [relayStep, HttpProxy.operate, h0, View.req, ruledReq, hh, hc, HttpProxy.authorized, Came.kind]
      · simp [relayStep, HttpProxy.operate, h1]
    refine .cons ?_ (ih _ (Or.inr hk) fun q hq => hall q (by simp [hq]))
    refine ⟨?_, a, rfl, ?_⟩
    · rcases hst with h0 | h1
      · simp [relayStep, HttpProxy.operate, h0, View.req, ruledReq, hh, hc, HttpProxy.authorized, Came.kind]
      · simp [relayStep, HttpProxy.operate, h1, ruledReq]
    · rcases hst with h0 | h1
      · simp [relayStep, HttpProxy.operate, h0, View.req, ruledReq, hh, hc, HttpProxy.authorized, Came.kind, ruledReply]
      · simp [relayStep, HttpProxy.operate, h1, Came.kind, ruledReply]

/-! ### Examples -/

def demoPass : Ext := ⟨Target.demoExt, exInsert, exactHeaders, fun c => c.1 ++ ':' :: showNat c.2.toNat⟩

/-- a location with a rule for requests and one for answers -/
def demoPlace : Place :=
  ⟨[⟨.add, true, "x-forwarded-for".toList, "1.2.3.4".toList⟩, ⟨.add, false, "via".toList, "wm".toList⟩], Target.demoUrl none,
    [Target.inner]⟩

def demoTurn : Turn :=
  ⟨pickAt true (Health.Check.global : Health.Check SockAddr) 0 (fun n => n / 4), .http, false, true, .answer ⟨200, [], [7]⟩⟩

def demoAsk : Request := ⟨"GET /".toList, [("host".toList, "shop".toList), ("a".toList, "b".toList)], [1]⟩

/-- the same request twice: once the upstream server sees its own address, once the client's host; never the rule's header;
    only the first answer has the header of the rule for answers -/
example : proxyRun demoPass demoPlace none [(demoAsk, demoTurn), (demoAsk, demoTurn)] =
    [(some ⟨Target.demoText Target.demoA.ip, 8080, ⟨"GET /".toList,
        [("host".toList, Target.demoText Target.demoA.ip ++ ":8080".toList), ("a".toList, "b".toList)], [1]⟩⟩,
      .served ⟨200, [("via".toList, "wm".toList)], [7]⟩),
     (some ⟨Target.demoText Target.demoA.ip, 8080, demoAsk⟩, .served ⟨200, [], [7]⟩)] := by decide +kernel

/-- a kept connection that is closed, one that ends, and one that answers -/
example (d : Dial) : (proxyRun demoPass demoPlace (some d) [(demoAsk, { demoTurn with closed := true })]).map (·.2) = [.notice 404] ∧
    (proxyRun demoPass demoPlace (some d) [(demoAsk, { demoTurn with came := .gone })]).map (·.2) = [.notice 503] ∧
    (proxyRun demoPass demoPlace (some d) [(demoAsk, demoTurn)]).map (·.2) = [.served ⟨200, [], [7]⟩] := ⟨rfl, rfl, rfl⟩

/-- the hypotheses of `C182_rules_fails` and `C182_host_fails` hold for these requests -/
example : (∀ n, demoPass.ins.same "x-forwarded-for".toList n = true → demoPass.ins.same "host".toList n = false) ∧
    demoPass.valuesOf "x-forwarded-for".toList demoAsk.headers = [] ∧
    ∃ d, httpDial demoPass.target demoTurn.pick demoPlace.groups demoTurn.scheme demoPlace.url = .ok d ∧
      [demoPass.text d.hostHeader] ≠ demoPass.valuesOf "host".toList demoAsk.headers := by
  refine ⟨fun n h => ?_, by decide +kernel, ⟨Target.demoText Target.demoA.ip, 8080, some (Target.demoText Target.demoA.ip),
    (Target.demoText Target.demoA.ip, 8080)⟩, by decide +kernel, by decide +kernel⟩
  have h : ("x-forwarded-for".toList == n) = true := h
  rw [beq_iff_eq] at h
  subst h
  decide +kernel

def demoView : View := ⟨exactHeaders, fun _ => some "shop:80".toList, fun _ => false, fun _ => none⟩

/-- two requests through the HTTP proxy of a mapping with both rules -/
example : relayRun demoView none none (some demoPlace.rules) HttpProxy.St.init
      [(demoAsk, true, .answer ⟨200, [], [7]⟩), (demoAsk, true, .answer ⟨404, [], []⟩)] =
    let passed := [("shop:80".toList, { demoAsk with headers := demoAsk.headers ++ [("x-forwarded-for".toList, "1.2.3.4".toList)] })]
    [(passed, .served ⟨200, [("via".toList, "wm".toList)], [7]⟩), (passed, .served ⟨404, [("via".toList, "wm".toList)], []⟩)] := by
  decide +kernel

end Wm.Pass
