import Verif.Model.Log
/-! What the fields of a pattern print for a request: src/log/pattern/mod.rs:594-744, src/helper.rs:230-247. -/
namespace Wm.Log
open Wm

/-- What is external about a request: its address as kept in the system headers, and the results of `url()`, `url().path`,
    `url().query`, `get_host()`, `get_referer()`, `get_user_agent()`, `get_cookie()` (crate `webparse`). -/
structure Asked where
  clientIp : Option Text
  url : Text
  path : Text
  query : Option Text
  host : Option Text
  referer : Option Text
  userAgent : Option Text
  cookie : Option Text
deriving DecidableEq, Repr

/-- What is external about the process: the clock, and the names of thread and process. -/
structure Around where
  time : Text → Bool → Option (List Text)
  thread : Text
  threadId : Text
  pid : Text
  tid : Text

/-- src/log/pattern/mod.rs:594-744 `FormattedChunk::encode` for the record that src/helper.rs:243 makes: the level is info, there
    is no message, module, file, line, or answer. `write!` of a value is one text here; how it is split makes no difference
    (C57). -/
def fieldText (q : Asked) (a : Around) : Field → Text
  | .level => "INFO".toList
  | .message => []
  | .module_ => "???".toList
  | .newline => ['\n']
  | .file => "???".toList
  | .line => "???".toList
  | .thread => a.thread
  | .threadId => a.threadId
  | .pid => a.pid
  | .tid => a.tid
  | .target => []
  | .clientIp => q.clientIp.getD "???".toList
  | .clientUser => []
  | .url => q.url
  | .path => q.path
  | .query => q.query.getD []
  | .host => q.host.getD []
  | .status => "???".toList
  | .upStatus => []
  | .bodyBytesSent => []
  | .referer => q.referer.getD []
  | .userAgent => q.userAgent.getD []
  | .cookie => q.cookie.getD []
  | .sslProtocol => []
  | .sslCipher => []
  | .upAddr => []
  | .requestTime => []
  | .upResponseTime => []

/-- src/helper.rs:243: the record for a request -/
def recOf (q : Asked) (a : Around) : Rec := { field := fun f => [fieldText q a f], time := a.time, styled := true }

end Wm.Log
