import Verif.Model.LogFields
import Verif.Props.LogErrors
/-! Property C175: what the fields of a log format show. -/
namespace Wm.Log
open Wm

theorem formatReq_field (k : Classes) (hk : Ascii k) (rec : Rec) (n ft rest o : Text) (f : Field) (ps : Params)
    (hf : (n, f) ∈ formatters) (hft : Format ft ps) (hps : ps.sane) (ho : formatReq k rec rest = .ok o) :
    formatReq k rec ('{' :: (n ++ (ft ++ '}' :: rest))) = .ok (fitTo ps (rec.field f).flatten ++ o) := by
  have h2 := fun m => next_field hk m hf hft rest
  refine formatReq_next (fun m => (h2 (m + 3)).1) (by simp; omega) ?_ ho
  rw [(h2 0).2, coded_sane rec (.field f ps) hps]; rfl

/-- the parts of a request by the names of their fields; what is absent is empty, but for the address -/
def parts (q : Asked) : List (Text × Text) :=
  [("client_ip".toList, q.clientIp.getD "???".toList), ("url".toList, q.url), ("path".toList, q.path),
   ("query".toList, q.query.getD []), ("host".toList, q.host.getD []), ("referer".toList, q.referer.getD []),
   ("user_agent".toList, q.userAgent.getD []), ("cookie".toList, q.cookie.getD [])]

/-- **C175**, partial: the fields that name a part of the request show this part, at the width asked for, wherever in a format they
    stand. Missing: the fields about the answer and about the connection, see the `_fails` theorems. -/
theorem C175_request_partial (k : Classes) (hk : Ascii k) (q : Asked) (a : Around) (n v ft rest o : Text) (ps : Params)
    (hn : (n, v) ∈ parts q) (hft : Format ft ps) (hps : ps.sane) (ho : formatReq k (recOf q a) rest = .ok o) :
    formatReq k (recOf q a) ('{' :: (n ++ (ft ++ '}' :: rest))) = .ok (fitTo ps v ++ o) := by
  have key : ∃ f, (n, f) ∈ formatters ∧ fieldText q a f = v := by
    simp only [parts, List.mem_cons, List.not_mem_nil, or_false, Prod.mk.injEq] at hn
    rcases hn with ⟨rfl, rfl⟩ | ⟨rfl, rfl⟩ | ⟨rfl, rfl⟩ | ⟨rfl, rfl⟩ | ⟨rfl, rfl⟩ | ⟨rfl, rfl⟩ | ⟨rfl, rfl⟩ | ⟨rfl, rfl⟩
    · exact ⟨.clientIp, by decide, rfl⟩
    · exact ⟨.url, by decide, rfl⟩
    · exact ⟨.path, by decide, rfl⟩
    · exact ⟨.query, by decide, rfl⟩
    · exact ⟨.host, by decide, rfl⟩
    · exact ⟨.referer, by decide, rfl⟩
    · exact ⟨.userAgent, by decide, rfl⟩
    · exact ⟨.cookie, by decide, rfl⟩
  obtain ⟨f, h1, h2⟩ := key
  have := formatReq_field k hk (recOf q a) n ft rest o f ps h1 hft hps ho
  rw [this]
  simp [recOf, h2]

/-- what is known about the process, by the names of the fields -/
def process (a : Around) : List (Text × Text) :=
  [("n".toList, ['\n']), ("T".toList, a.thread), ("thread".toList, a.thread), ("I".toList, a.threadId),
   ("thread_id".toList, a.threadId), ("P".toList, a.pid), ("pid".toList, a.pid), ("i".toList, a.tid), ("tid".toList, a.tid)]

/-- **C175** (about the process), partial: the same for the fields that name the thread and the process, and the line break. -/
theorem C175_process_partial (k : Classes) (hk : Ascii k) (q : Asked) (a : Around) (n v ft rest o : Text) (ps : Params)
    (hn : (n, v) ∈ process a) (hft : Format ft ps) (hps : ps.sane) (ho : formatReq k (recOf q a) rest = .ok o) :
    formatReq k (recOf q a) ('{' :: (n ++ (ft ++ '}' :: rest))) = .ok (fitTo ps v ++ o) := by
  have key : ∃ f, (n, f) ∈ formatters ∧ fieldText q a f = v := by
    simp only [process, List.mem_cons, List.not_mem_nil, or_false, Prod.mk.injEq] at hn
    rcases hn with ⟨rfl, rfl⟩ | ⟨rfl, rfl⟩ | ⟨rfl, rfl⟩ | ⟨rfl, rfl⟩ | ⟨rfl, rfl⟩ | ⟨rfl, rfl⟩ | ⟨rfl, rfl⟩ | ⟨rfl, rfl⟩ |
      ⟨rfl, rfl⟩
    · exact ⟨.newline, by decide, rfl⟩
    · exact ⟨.thread, by decide, rfl⟩
    · exact ⟨.thread, by decide, rfl⟩
    · exact ⟨.threadId, by decide, rfl⟩
    · exact ⟨.threadId, by decide, rfl⟩
    · exact ⟨.pid, by decide, rfl⟩
    · exact ⟨.pid, by decide, rfl⟩
    · exact ⟨.tid, by decide, rfl⟩
    · exact ⟨.tid, by decide, rfl⟩
  obtain ⟨f, h1, h2⟩ := key
  have := formatReq_field k hk (recOf q a) n ft rest o f ps h1 hft hps ho
  rw [this]
  simp [recOf, h2]

/-- **C175** fails: the status is never known, and neither is the place in the program: they are shown as `???`, whatever the request
    and however it was answered. -/
theorem C175_status_fails (k : Classes) (hk : Ascii k) (q : Asked) (a : Around) (n ft rest o : Text) (ps : Params)
    (hn : n ∈ ["status".toList, "M".toList, "module".toList, "f".toList, "file".toList, "L".toList, "line".toList])
    (hft : Format ft ps) (hps : ps.sane) (ho : formatReq k (recOf q a) rest = .ok o) :
    formatReq k (recOf q a) ('{' :: (n ++ (ft ++ '}' :: rest))) = .ok (fitTo ps "???".toList ++ o) := by
  have key : ∃ f, (n, f) ∈ formatters ∧ fieldText q a f = "???".toList := by
    simp only [List.mem_cons, List.not_mem_nil, or_false] at hn
    rcases hn with rfl | rfl | rfl | rfl | rfl | rfl | rfl
    · exact ⟨.status, by decide, rfl⟩
    · exact ⟨.module_, by decide, rfl⟩
    · exact ⟨.module_, by decide, rfl⟩
    · exact ⟨.file, by decide, rfl⟩
    · exact ⟨.file, by decide, rfl⟩
    · exact ⟨.line, by decide, rfl⟩
    · exact ⟨.line, by decide, rfl⟩
  obtain ⟨f, h1, h2⟩ := key
  have := formatReq_field k hk (recOf q a) n ft rest o f ps h1 hft hps ho
  rw [this]
  simp [recOf, h2]

/-- **C175** fails: the fields for the user, the status, address and time of the upstream server, the bytes sent, the time taken,
    the parameters of TLS, the message and its target never show anything but the filling of their width. -/
theorem C175_nothing_fails (k : Classes) (hk : Ascii k) (q : Asked) (a : Around) (n ft rest o : Text) (ps : Params)
    (hn : n ∈ ["client_user".toList, "up_status".toList, "up_addr".toList, "up_response_time".toList, "body_bytes_sent".toList,
      "request_time".toList, "ssl_protocol".toList, "ssl_cipher".toList, "m".toList, "message".toList, "t".toList, "target".toList])
    (hft : Format ft ps) (hps : ps.sane) (ho : formatReq k (recOf q a) rest = .ok o) :
    formatReq k (recOf q a) ('{' :: (n ++ (ft ++ '}' :: rest))) = .ok (fitTo ps [] ++ o) := by
  have key : ∃ f, (n, f) ∈ formatters ∧ fieldText q a f = [] := by
    simp only [List.mem_cons, List.not_mem_nil, or_false] at hn
    rcases hn with rfl | rfl | rfl | rfl | rfl | rfl | rfl | rfl | rfl | rfl | rfl | rfl
    · exact ⟨.clientUser, by decide, rfl⟩
    · exact ⟨.upStatus, by decide, rfl⟩
    · exact ⟨.upAddr, by decide, rfl⟩
    · exact ⟨.upResponseTime, by decide, rfl⟩
    · exact ⟨.bodyBytesSent, by decide, rfl⟩
    · exact ⟨.requestTime, by decide, rfl⟩
    · exact ⟨.sslProtocol, by decide, rfl⟩
    · exact ⟨.sslCipher, by decide, rfl⟩
    · exact ⟨.message, by decide, rfl⟩
    · exact ⟨.message, by decide, rfl⟩
    · exact ⟨.target, by decide, rfl⟩
    · exact ⟨.target, by decide, rfl⟩
  obtain ⟨f, h1, h2⟩ := key
  have := formatReq_field k hk (recOf q a) n ft rest o f ps h1 hft hps ho
  rw [this]
  simp [recOf, h2]

/-- **C175** fails: the level is shown as INFO, whatever level the log is configured with. -/
theorem C175_level_fails (k : Classes) (hk : Ascii k) (q : Asked) (a : Around) (n ft rest o : Text) (ps : Params)
    (hn : n = "l".toList ∨ n = "level".toList)
    (hft : Format ft ps) (hps : ps.sane) (ho : formatReq k (recOf q a) rest = .ok o) :
    formatReq k (recOf q a) ('{' :: (n ++ (ft ++ '}' :: rest))) = .ok (fitTo ps "INFO".toList ++ o) := by
  have hf : (n, Field.level) ∈ formatters := by rcases hn with rfl | rfl <;> decide
  rw [formatReq_field k hk (recOf q a) n ft rest o .level ps hf hft hps ho]
  simp [recOf, fieldText]

def exAsked : Asked := ⟨some "10.0.0.1".toList, "http://h/a?x=1".toList, "/a".toList, some "x=1".toList, some "h".toList, none,
  some "curl".toList, none⟩

def exAround : Around := ⟨fun _ _ => some ["2026".toList], "main".toList, "ThreadId(1)".toList, "1".toList, "ThreadId(1)".toList⟩

example : formatReq exK (recOf exAsked exAround) "{client_ip} {l} {path}?{query} {status} {up_status:3}|{referer}|{user_agent:>6}".toList
    = .ok "10.0.0.1 INFO /a?x=1 ???    ||  curl".toList := by decide +kernel

end Wm.Log
