import Verif.Model.Ring
import Verif.Spec.Tunnel
import Verif.Proofs.Reader
import Verif.Props.Codec
import Verif.Props.Tunnel
/-! C153: a stream that is not read for a while, and the other streams of the tunnel. -/
namespace Wm.Ring
open Wm Wm.Prot Wm.Tunnel

/-! ### the server's end while it delivers to one stream -/

/-- a running end; the channel of stream `c.id` is number 0 and holds `q`, the loop waits to put `p` there, `k` messages
    are in the outgoing channel, nothing was ever written -/
structure S (c : Cfg) (t : Tunnel.St) (q : List Frame) (p : Option Frame) (k : Nat) : Prop where
  phase : t.phase = .running
  verify : t.verify = true
  ready : t.readyShutdown = false
  map : lookup c.id t.map = some 0
  chan : t.chan 0 = ⟨q, true, true⟩
  outq : t.outq.length = k
  pending : t.pending = p.map (fun f => (0, f))
  written : written t.trace = []
  opened : .opened c.id 0 (.proxy none) ∈ t.trace

/-- a data message of the stream that fits -/
def Good (c : Cfg) (f : Frame) : Prop := Fits f ∧ ∃ d, f = .data c.id d

theorem decode_good {c : Cfg} {f : Frame} (hf : Good c f) (rest : Bytes) :
    decodeFrame (wire f ++ rest) = (.ok (some f), rest) := by
  obtain ⟨hfit, d, rfl⟩ := hf
  have := (C01_frame_roundtrip (.data c.id d) hfit [] rest).2
  simpa [asReceived] using this

theorem written_snoc_other (t : List Obs) (o : Obs) (ho : ∀ bs, o ≠ .wrote bs) :
    Tunnel.written (t ++ [o]) = Tunnel.written t := by
  unfold Tunnel.written
  rw [List.flatMap_append]
  cases o <;> simp at ho ⊢

theorem S.emit {c t q p k} (h : S c t q p k) (o : Obs) (ho : ∀ bs, o ≠ .wrote bs) : S c (emit o t) q p k where
  phase := h.phase
  verify := h.verify
  ready := h.ready
  map := h.map
  chan := h.chan
  outq := h.outq
  pending := h.pending
  written := by rw [← h.written]; exact written_snoc_other _ _ ho
  opened := List.mem_append_left _ h.opened

theorem S.put {c t q k} (h : S c t q none k) (f : Frame) : S c (putChan 0 f t) (q ++ [f]) none k := by
  have h1 : S c (setChan 0 { t.chan 0 with q := (t.chan 0).q ++ [f] } t) (q ++ [f]) none k :=
    ⟨h.phase, h.verify, h.ready, h.map, by simp [setChan, h.chan], h.outq, h.pending, h.written, h.opened⟩
  exact h1.emit _ (by simp)

theorem handle_put {c t q k} (h : S c t q none k) {f : Frame} (hf : Good c f) (hq : q.length < 10) :
    ∃ t', serverHandle c.server t f = (t', false) ∧ S c t' (q ++ [f]) none k ∧ t'.readBuf = t.readBuf := by
  obtain ⟨_, d, rfl⟩ := hf
  have h1 := h.emit (.got (.data c.id d)) (by simp)
  refine ⟨putChan 0 (.data c.id d) (Tunnel.emit (.got (.data c.id d)) t), ?_, h1.put _, rfl⟩
  have hv := h1.verify
  have hm := h1.map
  have hc := h1.chan
  unfold serverHandle
  generalize Tunnel.emit (.got (.data c.id d)) t = u at *
  simp [loginNow, hv, hm, sendAwait, hc, streamCap, hq]

theorem handle_block {c t q k} (h : S c t q none k) {f : Frame} (hf : Good c f) (hq : q.length = 10) :
    ∃ t', serverHandle c.server t f = (t', true) ∧ S c t' q (some f) k ∧ t'.readBuf = t.readBuf := by
  obtain ⟨_, d, rfl⟩ := hf
  have h1 := h.emit (.got (.data c.id d)) (by simp)
  refine ⟨{ Tunnel.emit (.got (.data c.id d)) t with pending := some (0, .data c.id d) }, ?_, ?_, rfl⟩
  · have hv := h1.verify
    have hm := h1.map
    have hc := h1.chan
    unfold serverHandle
    generalize Tunnel.emit (.got (.data c.id d)) t = u at *
    simp [loginNow, hv, hm, sendAwait, hc, streamCap, hq]
  · exact ⟨h1.phase, h1.verify, h1.ready, h1.map, h1.chan, h1.outq, rfl, h1.written, h1.opened⟩

theorem pump_fill {c k} (fs : List Frame) (hfs : ∀ f ∈ fs, Good c f) : ∀ t q, S c t q none k →
    q.length + fs.length ≤ 10 →
    ∃ t', pump (serverHandle c.server) t (fs.flatMap wire) = (t', [], .more) ∧ S c t' (q ++ fs) none k := by
  induction fs with
  | nil =>
    intro t q h _
    exact ⟨t, pump_none _ _ (by decide), by simpa using h⟩
  | cons f fs ih =>
    intro t q h hl
    simp only [List.length_cons] at hl
    obtain ⟨t1, e1, h1, _⟩ := handle_put h (hfs f (by simp)) (by omega)
    obtain ⟨t2, e2, h2⟩ := ih (fun x hx => hfs x (by simp [hx])) t1 _ h1 (by simp; omega)
    refine ⟨t2, ?_, by simpa using h2⟩
    rw [List.flatMap_cons, pump_some _ _ (decode_good (hfs f (by simp)) _), e1]
    exact e2

theorem pump_block {c k} (fs : List Frame) (p : Frame) (rest : List Frame) (hp : Good c p) (hfs : ∀ f ∈ fs, Good c f) :
    ∀ t q, S c t q none k → q.length + fs.length = 10 →
    ∃ t', pump (serverHandle c.server) t ((fs ++ p :: rest).flatMap wire) = (t', rest.flatMap wire, .stopped) ∧
      S c t' (q ++ fs) (some p) k := by
  induction fs with
  | nil =>
    intro t q h hl
    obtain ⟨t1, e1, h1, _⟩ := handle_block h hp (by simpa using hl)
    refine ⟨t1, ?_, by simpa using h1⟩
    rw [List.nil_append, List.flatMap_cons, pump_some _ _ (decode_good hp _), e1]
    rfl
  | cons f fs ih =>
    intro t q h hl
    simp only [List.length_cons] at hl
    obtain ⟨t1, e1, h1, _⟩ := handle_put h (hfs f (by simp)) (by omega)
    obtain ⟨t2, e2, h2⟩ := ih (fun x hx => hfs x (by simp [hx])) t1 _ h1 (by simp; omega)
    refine ⟨t2, ?_, by simpa using h2⟩
    rw [List.cons_append, List.flatMap_cons, pump_some _ _ (decode_good (hfs f (by simp)) _), e1]
    exact e2

theorem S.buf {c t q p k} (h : S c t q p k) (b : Bytes) : S c { t with readBuf := b } q p k :=
  ⟨h.phase, h.verify, h.ready, h.map, h.chan, h.outq, h.pending, h.written, h.opened⟩

theorem resume_fill {c t q k} (fs : List Frame) (hfs : ∀ f ∈ fs, Good c f) (h : S c t q none k)
    (hb : t.readBuf = fs.flatMap wire) (hl : q.length + fs.length ≤ 10) :
    S c (resume (serverHandle c.server) t) (q ++ fs) none k ∧ (resume (serverHandle c.server) t).readBuf = [] := by
  obtain ⟨t1, e1, h1⟩ := pump_fill fs hfs t q h hl
  unfold resume
  rw [if_pos ⟨h.phase, h.ready, h.pending⟩, hb, e1]
  exact ⟨h1.buf _, rfl⟩

theorem resume_block {c t q k} (fs : List Frame) (p : Frame) (rest : List Frame) (hp : Good c p)
    (hfs : ∀ f ∈ fs, Good c f) (h : S c t q none k) (hb : t.readBuf = (fs ++ p :: rest).flatMap wire)
    (hl : q.length + fs.length = 10) :
    S c (resume (serverHandle c.server) t) (q ++ fs) (some p) k ∧
    (resume (serverHandle c.server) t).readBuf = rest.flatMap wire := by
  obtain ⟨t1, e1, h1⟩ := pump_block fs p rest hp hfs t q h hl
  unfold resume
  rw [if_pos ⟨h.phase, h.ready, h.pending⟩, hb, e1]
  exact ⟨h1.buf _, rfl⟩

/-- the messages arrive in one read -/
theorem read_step (c : Cfg) {t : Tunnel.St} {q k} (h : S c t q none k) (bs : Bytes) :
    serverStep c.server t (.read bs) =
      resume (serverHandle c.server) (Tunnel.emit (.arrived bs) { t with readBuf := t.readBuf ++ bs }) := by
  show (if t.phase = .running ∧ t.pending = none then _ else _) = _
  rw [if_pos ⟨h.phase, h.pending⟩]

theorem read_one {c t k} (h : S c t [] none k) (hb : t.readBuf = []) {f : Frame} (hf : Good c f) :
    S c (serverStep c.server t (.read (wire f))) [f] none k ∧ (serverStep c.server t (.read (wire f))).readBuf = [] := by
  rw [read_step c h]
  exact resume_fill [f] (by simpa using hf) ((h.buf _).emit _ (by simp)) (by simp [Tunnel.emit, hb]) (by simp)

theorem read_many {c t k} (h : S c t [] none k) (hb : t.readBuf = []) (fs : List Frame) (p : Frame) (rest : List Frame)
    (hfs : ∀ f ∈ fs, Good c f) (hp : Good c p) (hl : fs.length = 10) :
    S c (serverStep c.server t (.read ((fs ++ p :: rest).flatMap wire))) fs (some p) k ∧
    (serverStep c.server t (.read ((fs ++ p :: rest).flatMap wire))).readBuf = rest.flatMap wire := by
  rw [read_step c h]
  exact resume_block fs p rest hp hfs ((h.buf _).emit _ (by simp)) (by simp [Tunnel.emit, hb]) (by simpa using hl)

theorem take_one {c t k f} (h : S c t [f] none k) :
    S c (serverStep c.server t (.take 0)) [] none k ∧ (serverStep c.server t (.take 0)).readBuf = t.readBuf := by
  have hc : (t.chan 0).q = [f] := by rw [h.chan]
  have hr : (t.chan 0).rx = true := by rw [h.chan]
  have e : serverStep c.server t (.take 0) = Tunnel.emit (.took 0 f) (setChan 0 { t.chan 0 with q := [] } t) := by
    simp [serverStep, Tunnel.step, hc, hr, resumePending, Tunnel.emit, setChan, h.pending]
  rw [e]
  have h1 : S c (setChan 0 { t.chan 0 with q := [] } t) [] none k :=
    ⟨h.phase, h.verify, h.ready, h.map, by simp [setChan, h.chan], h.outq, h.pending, h.written, h.opened⟩
  exact ⟨h1.emit _ (by simp), rfl⟩

theorem take_next {c t k f p r} {qs rest : List Frame} (h : S c t (f :: qs) (some p) k) (hl : qs.length = 9) (hr : Good c r)
    (hb : t.readBuf = (r :: rest).flatMap wire) :
    S c (serverStep c.server t (.take 0)) (qs ++ [p]) (some r) k ∧
    (serverStep c.server t (.take 0)).readBuf = rest.flatMap wire := by
  have hc : (t.chan 0).q = f :: qs := by rw [h.chan]
  have hrx : (t.chan 0).rx = true := by rw [h.chan]
  let u : Tunnel.St := { Tunnel.emit (.took 0 f) (setChan 0 { t.chan 0 with q := qs } t) with pending := none }
  have hu : S c u qs none k := by
    have h0 : S c (setChan 0 { t.chan 0 with q := qs } t) qs (some p) k :=
      ⟨h.phase, h.verify, h.ready, h.map, by simp [setChan, h.chan], h.outq, h.pending, h.written, h.opened⟩
    have h1 := h0.emit (.took 0 f) (by simp)
    exact ⟨h1.phase, h1.verify, h1.ready, h1.map, h1.chan, h1.outq, rfl, h1.written, h1.opened⟩
  have hub : u.readBuf = (r :: rest).flatMap wire := hb
  have e : serverStep c.server t (.take 0) = resume (serverHandle c.server) (putChan 0 p u) := by
    have e1 : serverStep c.server t (.take 0) =
        resumePending (serverHandle c.server) (Tunnel.emit (.took 0 f) (setChan 0 { t.chan 0 with q := qs } t)) := by
      simp [serverStep, Tunnel.step, hc, hrx]
    rw [e1]
    unfold resumePending
    have hpd : (Tunnel.emit (.took 0 f) (setChan 0 { t.chan 0 with q := qs } t)).pending = some (0, p) := h.pending
    rw [hpd]
    show (if (sendAwait 0 p u).2 then (sendAwait 0 p u).1 else resume _ (sendAwait 0 p u).1) = _
    have hs : sendAwait 0 p u = (putChan 0 p u, false) := by
      unfold sendAwait
      rw [if_neg (by rw [hu.chan]; simp), if_pos (by rw [hu.chan]; simp [streamCap, hl])]
    rw [hs]; rfl
  rw [e]
  have := resume_block (c := c) [] r rest hr (by simp) (hu.put p) (by show u.readBuf = _; rw [hub]; rfl) (by simp [hl])
  simpa using this

theorem submit_one {c t q p k} (h : S c t q p k) (hk : k < 100) (f : Frame) :
    S c (serverStep c.server t (.submit f)) q p (k + 1) ∧ (serverStep c.server t (.submit f)).readBuf = t.readBuf := by
  have e : serverStep c.server t (.submit f) = Tunnel.emit (.submitted f) { t with outq := t.outq ++ [f] } := by
    show (if t.phase = .running ∧ t.outq.length < outCap then _ else _) = _
    rw [if_pos ⟨h.phase, by rw [h.outq]; exact hk⟩]
  rw [e]
  have h1 : S c { t with outq := t.outq ++ [f] } q p (k + 1) :=
    ⟨h.phase, h.verify, h.ready, h.map, h.chan, by simp [h.outq], h.pending, h.written, h.opened⟩
  exact ⟨h1.emit _ (by simp), rfl⟩

/-! ### the ring -/

/-- the state of the ring: the end as in `S`, `rest` not yet decoded, and the number of bytes at each place -/
structure At (c : Cfg) (s : St) (q : List Frame) (p : Option Frame) (rest : List Frame) (k o h i : Nat) : Prop where
  srv : S c s.srv q p k
  buf : s.srv.readBuf = rest.flatMap wire
  read : s.read = []
  out : s.out.length = o
  hold : s.hold.length = h
  inn : s.inn.length = i

/-- one byte for the stream -/
def one (c : Cfg) : Frame := .data c.id [0]

theorem one_good {c : Cfg} (hid : IdFits c.id) : Good c (one c) := ⟨⟨by simp [one, BodyFits], hid⟩, _, rfl⟩

theorem fetch_step {c : Cfg} {s : St} {q : List Frame} {p rest k o h i} (hs : At c s (.data c.id [0] :: q) p rest k o h i)
    (hc : c.chan = 0) (ho : o < c.cap) (q' : List Frame) (p' : Option Frame) (rest' : List Frame)
    (ht : S c (serverStep c.server s.srv (.take 0)) q' p' k ∧
      (serverStep c.server s.srv (.take 0)).readBuf = rest'.flatMap wire) :
    At c (step c s .fetch) q' p' rest' k (o + 1) h i := by
  have hq : (s.srv.chan 0).q = .data c.id [0] :: q := by rw [hs.srv.chan]
  have e : step c s .fetch = { s with srv := serverStep c.server s.srv (.take 0), read := [], out := s.out ++ [0] } := by
    show (if s.out.length < c.cap then _ else _) = _
    rw [if_pos (by rw [hs.out]; exact ho), hc, hq]
    show ({ s with srv := _, read := _, out := _ } : St) = _
    obtain ⟨n, hn⟩ : ∃ n, c.cap - s.out.length = n + 1 := ⟨c.cap - s.out.length - 1, by rw [hs.out]; omega⟩
    rw [hs.read, hn]; simp
  rw [e]
  exact ⟨ht.1, ht.2, rfl, by simp [hs.out], hs.hold, hs.inn⟩

theorem give_step {c : Cfg} {s : St} {q p rest k o h i} (hs : At c s q p rest k o h i) (n : Nat) (h1 : n ≤ o)
    (h2 : h + n ≤ c.room) : At c (step c s (.give n)) q p rest k (o - n) (h + n) i := by
  have hk : min n (c.room - s.hold.length) = n := by rw [hs.hold]; omega
  refine ⟨hs.srv, hs.buf, hs.read, ?_, ?_, hs.inn⟩
  · simp only [step, hk, List.length_drop, hs.out]
  · simp only [step, hk, List.length_append, List.length_take, hs.out, hs.hold]; omega

theorem back_step {c : Cfg} {s : St} {q p rest k o h i} (hs : At c s q p rest k o h i) (n : Nat) (h1 : n ≤ h)
    (h2 : i + n ≤ c.cap) : At c (step c s (.back n)) q p rest k o (h - n) (i + n) := by
  have hk : min n (c.cap - s.inn.length) = n := by rw [hs.inn]; omega
  refine ⟨hs.srv, hs.buf, hs.read, hs.out, ?_, ?_⟩
  · simp only [step, hk, List.length_drop, hs.hold]
  · simp only [step, hk, List.length_append, List.length_take, hs.hold, hs.inn]; omega

theorem answer_step {c : Cfg} {s : St} {q p rest k o h i} (hs : At c s q p rest k o h i) (hi : 0 < i) (hk : k < 100) :
    At c (step c s .answer) q p rest (k + 1) o h 0 := by
  have hne : s.inn ≠ [] := by intro he; rw [← hs.inn, he] at hi; simp at hi
  have e : step c s .answer = { s with srv := serverStep c.server s.srv (.submit (.data c.id s.inn)), inn := [] } := by
    show (if _ then _ else _) = _
    rw [if_pos ⟨hne, hs.srv.phase, by rw [hs.srv.outq]; exact hk⟩]
  rw [e]
  have := submit_one hs.srv hk (.data c.id s.inn)
  exact ⟨this.1, by rw [← hs.buf]; exact this.2, hs.read, hs.out, hs.hold, rfl⟩

theorem read_step_one {c : Cfg} {s : St} {k o h i} (hs : At c s [] none [] k o h i) (hid : IdFits c.id) :
    At c (step c s (.loop (.read (wire (one c))))) [one c] none [] k o h i := by
  have := read_one hs.srv (by simpa using hs.buf) (one_good hid)
  exact ⟨this.1, this.2, hs.read, hs.out, hs.hold, hs.inn⟩

theorem fetch_one {c : Cfg} {s : St} {k o h i} (hs : At c s [one c] none [] k o h i) (hc : c.chan = 0) (ho : o < c.cap) :
    At c (step c s .fetch) [] none [] k (o + 1) h i := by
  have := take_one hs.srv
  exact fetch_step hs hc ho [] none [] ⟨this.1, by rw [this.2]; exact hs.buf⟩

/-- the target's memory fills -/
theorem fillA {c : Cfg} (hid : IdFits c.id) (hc : c.chan = 0) (hcap : 0 < c.cap) (n : Nat) : ∀ s h, At c s [] none [] 0 0 h 0 →
    h + n ≤ c.room →
    At c ((List.replicate n [.loop (.read (wire (one c))), .fetch, .give 1]).flatten.foldl (step c) s) [] none [] 0 0 (h + n) 0 := by
  induction n with
  | zero => intro s h hs _; simpa using hs
  | succ n ih =>
    intro s h hs hl
    rw [List.replicate_succ, List.flatten_cons, List.foldl_append]
    have h1 := give_step (fetch_one (read_step_one hs hid) hc hcap) 1 (by omega) (by omega)
    have := ih _ (h + 1) h1 (by omega)
    rw [show h + (n + 1) = h + 1 + n by omega]
    exact this

/-- the copy buffer fills -/
theorem fillB {c : Cfg} (hid : IdFits c.id) (hc : c.chan = 0) (h : Nat) (n : Nat) : ∀ s o, At c s [] none [] 0 o h 0 →
    o + n ≤ c.cap →
    At c ((List.replicate n [.loop (.read (wire (one c))), .fetch]).flatten.foldl (step c) s) [] none [] 0 (o + n) h 0 := by
  induction n with
  | zero => intro s o hs _; simpa using hs
  | succ n ih =>
    intro s o hs hl
    rw [List.replicate_succ, List.flatten_cons, List.foldl_append]
    have h1 := fetch_one (read_step_one hs hid) hc (by omega)
    have := ih _ (o + 1) h1 (by omega)
    rw [show o + (n + 1) = o + 1 + n by omega]
    exact this

/-- the last messages: one as long as the copy buffer, and eleven that nobody takes any more -/
def tail (c : Cfg) : List Frame := .data c.id (List.replicate c.cap 0) :: List.replicate 11 (one c)

/-- ten messages wait in the channel, the loop waits with the next, and the answers fill the outgoing channel -/
theorem turn {c : Cfg} (hc : c.chan = 0) (hcap : 0 < c.cap) (hroom : 0 < c.room) {s k q p r rest}
    (hs : At c s (one c :: q) (some p) (r :: rest) k c.cap c.room 0) (hq : q.length = 9) (hr : Good c r) (hk : k < 100) :
    At c ([.back 1, .answer, .give 1, .fetch].foldl (step c) s) (q ++ [p]) (some r) rest (k + 1) c.cap c.room 0 := by
  have h1 := answer_step (back_step hs 1 (by omega) (by omega)) (by omega) hk
  have h2 := give_step h1 1 (by omega) (by omega)
  have h3 := fetch_step h2 hc (by omega) (q ++ [p]) (some r) rest (take_next h2.srv hq hr h2.buf)
  simp only [List.foldl_cons, List.foldl_nil]
  rw [show c.cap - 1 + 1 = c.cap by omega, show c.room - 1 + 1 = c.room by omega] at h3
  exact h3

theorem tail_good {c : Cfg} (hid : IdFits c.id) (hcap : c.cap < 2 ^ 24) : ∀ f ∈ tail c, Good c f := by
  intro f hf
  rcases List.mem_cons.1 hf with rfl | hf
  · exact ⟨⟨by simpa [BodyFits] using hcap, hid⟩, _, rfl⟩
  · rw [List.eq_of_mem_replicate hf]; exact one_good hid

/-- the `n`-th to last of the messages of one byte that are read in one go: what is in the channel, what the loop waits
    with, what is not yet decoded, seen as one list -/
theorem turns {c : Cfg} (hid : IdFits c.id) (hc : c.chan = 0) (hcap : 0 < c.cap) (hcap2 : c.cap < 2 ^ 24)
    (hroom : 0 < c.room) (n : Nat) : ∀ s k q p rest, At c s q (some p) rest k c.cap c.room 0 → q.length = 10 →
    q ++ p :: rest = List.replicate n (one c) ++ tail c → k + n = 100 →
    ∃ q' p' rest', At c ((List.replicate n [.back 1, .answer, .give 1, .fetch]).flatten.foldl (step c) s)
      q' (some p') rest' 100 c.cap c.room 0 ∧ q'.length = 10 ∧ q' ++ p' :: rest' = tail c := by
  induction n with
  | zero =>
    intro s k q p rest hs hq he hk
    have : k = 100 := by omega
    subst this
    exact ⟨q, p, rest, by simpa using hs, hq, by simpa using he⟩
  | succ n ih =>
    intro s k q p rest hs hq he hk
    match q, hq with
    | f :: q, hq =>
      have hf : f = one c := by
        rw [List.replicate_succ] at he
        exact (List.cons.inj he).1
      have he' : q ++ p :: rest = List.replicate n (one c) ++ tail c := by
        rw [List.replicate_succ] at he
        exact (List.cons.inj he).2
      subst hf
      have hq9 : q.length = 9 := by simpa using hq
      match rest with
      | [] =>
        have := congrArg List.length he'
        simp [tail, hq9] at this
      | r :: rest =>
        have hr : Good c r := by
          have : r ∈ List.replicate n (one c) ++ tail c := by rw [← he']; simp
          rcases List.mem_append.1 this with h | h
          · rw [List.eq_of_mem_replicate h]; exact one_good hid
          · exact tail_good hid hcap2 r h
        have h1 := turn hc hcap hroom hs hq9 hr (by omega)
        rw [List.replicate_succ, List.flatten_cons, List.foldl_append]
        exact ih _ (k + 1) _ _ _ h1 (by simp [hq9]) (by simpa using he') (by omega)

/-- nobody can do anything -/
structure Frozen (c : Cfg) (s : St) : Prop where
  phase : s.srv.phase = .running
  pending : ∃ f, s.srv.pending = some (c.chan, f)
  full : (s.srv.chan c.chan).q.length = streamCap
  rx : (s.srv.chan c.chan).rx = true
  outq : s.srv.outq.length = outCap
  out : s.out.length = c.cap
  hold : s.hold.length = c.room
  inn : s.inn.length = c.cap

theorem retry {H : Tunnel.St → Frame → Tunnel.St × Bool} {t : Tunnel.St} {h f} (hp : t.pending = some (h, f))
    (hf : (t.chan h).q.length = streamCap) (hr : (t.chan h).rx = true) : resumePending H t = t := by
  unfold resumePending
  rw [hp]
  have e : sendAwait h f { t with pending := none } = ({ t with pending := some (h, f) }, true) := by
    unfold sendAwait
    rw [if_neg (by simp [hr]), if_neg (by simp [hf])]
  simp only [e, if_true]
  cases t; simp at hp; simp [hp]

/-- what can be seen of the progress of the tunnel -/
def Same (t t' : Tunnel.St) : Prop :=
  Tunnel.written t'.trace = Tunnel.written t.trace ∧ gots t'.trace = gots t.trace ∧ arrived t'.trace = arrived t.trace ∧
  (∀ h, puts h t'.trace = puts h t.trace)

theorem Same.rfl' (t : Tunnel.St) : Same t t := ⟨rfl, rfl, rfl, fun _ => rfl⟩

theorem Frozen.other {c s} (hs : Frozen c s) (h : Nat) (ch : Chan) (o : Obs) (hh : h ≠ c.chan)
    (ho : (∃ k f, o = .took k f) ∨ ∃ k, o = .rxGone k) :
    Frozen c { s with srv := Tunnel.emit o (setChan h ch s.srv) } ∧
    Same s.srv (Tunnel.emit o (setChan h ch s.srv)) := by
  have e : (setChan h ch s.srv).chan c.chan = s.srv.chan c.chan := by simp [setChan, Ne.symm hh]
  refine ⟨⟨hs.phase, hs.pending, by show ((setChan h ch s.srv).chan c.chan).q.length = _; rw [e]; exact hs.full,
    by show ((setChan h ch s.srv).chan c.chan).rx = _; rw [e]; exact hs.rx, hs.outq, hs.out, hs.hold, hs.inn⟩, ?_⟩
  rcases ho with ⟨k, f, rfl⟩ | ⟨k, rfl⟩ <;>
    refine ⟨?_, ?_, ?_, fun j => ?_⟩ <;>
    simp [Tunnel.written, gots, arrived, puts, Tunnel.emit, setChan, List.filterMap_append, List.flatMap_append]

theorem Frozen.step {c s} (hs : Frozen c s) (e : Event) :
    Frozen c (Ring.step c s e) ∧ Same s.srv (Ring.step c s e).srv := by
  obtain ⟨f0, hp⟩ := hs.pending
  have triv : Frozen c s ∧ Same s.srv s.srv := ⟨hs, Same.rfl' _⟩
  cases e with
  | loop e =>
    have : Ring.step c s (.loop e) = s := by
      show (if ofLoop e = true then _ else s) = s
      split
      · rename_i ho
        have : serverStep c.server s.srv e = s.srv := by
          cases e <;> simp [ofLoop] at ho <;> simp [serverStep, Tunnel.step, hp]
        rw [this]
      · rfl
    rw [this]; exact triv
  | submit f =>
    have : serverStep c.server s.srv (.submit f) = s.srv := by
      show (if s.srv.phase = .running ∧ s.srv.outq.length < outCap then _ else _) = _
      rw [if_neg (by rw [hs.outq]; simp)]
    have : Ring.step c s (.submit f) = s := by
      show ({ s with srv := serverStep c.server s.srv (.submit f) } : St) = s
      rw [this]
    rw [this]; exact triv
  | take h =>
    by_cases hh : h = c.chan
    · rw [show Ring.step c s (.take h) = s by simp [Ring.step, hh]]; exact triv
    · have e1 : Ring.step c s (.take h) = { s with srv := serverStep c.server s.srv (.take h) } := by
        simp [Ring.step, hh]
      rw [e1]
      show Frozen c { s with srv := serverStep c.server s.srv (.take h) } ∧ Same s.srv (serverStep c.server s.srv (.take h))
      cases hq : (s.srv.chan h).q with
      | nil =>
        rw [show serverStep c.server s.srv (.take h) = s.srv by simp [serverStep, Tunnel.step, hq]]; exact triv
      | cons f q =>
        by_cases hr : (s.srv.chan h).rx = true
        · have ho := hs.other h { s.srv.chan h with q := q } (.took h f) hh (.inl ⟨_, _, rfl⟩)
          have : serverStep c.server s.srv (.take h) = Tunnel.emit (.took h f) (setChan h { s.srv.chan h with q := q } s.srv) := by
            have e2 : serverStep c.server s.srv (.take h) = resumePending (serverHandle c.server)
                (Tunnel.emit (.took h f) (setChan h { s.srv.chan h with q := q } s.srv)) := by
              simp [serverStep, Tunnel.step, hq, hr]
            rw [e2]
            exact retry (h := c.chan) (f := f0) hp ho.1.full ho.1.rx
          rw [this]; exact ho
        · rw [show serverStep c.server s.srv (.take h) = s.srv by simp [serverStep, Tunnel.step, hq, hr]]; exact triv
  | dropRx h =>
    by_cases hh : h = c.chan
    · rw [show Ring.step c s (.dropRx h) = s by simp [Ring.step, hh]]; exact triv
    · have e1 : Ring.step c s (.dropRx h) = { s with srv := serverStep c.server s.srv (.dropRx h) } := by
        simp [Ring.step, hh]
      rw [e1]
      show Frozen c { s with srv := serverStep c.server s.srv (.dropRx h) } ∧
        Same s.srv (serverStep c.server s.srv (.dropRx h))
      by_cases hr : (s.srv.chan h).rx = true
      · have ho := hs.other h { s.srv.chan h with q := [], rx := false } (.rxGone h) hh (.inr ⟨_, rfl⟩)
        have : serverStep c.server s.srv (.dropRx h) =
            Tunnel.emit (.rxGone h) (setChan h { s.srv.chan h with q := [], rx := false } s.srv) := by
          have e2 : serverStep c.server s.srv (.dropRx h) = resumePending (serverHandle c.server)
              (Tunnel.emit (.rxGone h) (setChan h { s.srv.chan h with q := [], rx := false } s.srv)) := by
            simp [serverStep, Tunnel.step, hr]
          rw [e2]
          exact retry (h := c.chan) (f := f0) hp ho.1.full ho.1.rx
        rw [this]; exact ho
      · rw [show serverStep c.server s.srv (.dropRx h) = s.srv by simp [serverStep, Tunnel.step, hr]]; exact triv
  | fetch =>
    rw [show Ring.step c s .fetch = s by simp [Ring.step, hs.out]]; exact triv
  | give n =>
    rw [show Ring.step c s (.give n) = s by simp [Ring.step, hs.hold]]; exact triv
  | back n =>
    rw [show Ring.step c s (.back n) = s by simp [Ring.step, hs.inn]]; exact triv
  | answer =>
    rw [show Ring.step c s .answer = s by simp [Ring.step, hs.outq]]; exact triv

theorem Frozen.run {c s} (hs : Frozen c s) (es : List Event) :
    Frozen c (es.foldl (Ring.step c) s) ∧ Same s.srv (es.foldl (Ring.step c) s).srv := by
  induction es generalizing s with
  | nil => exact ⟨hs, Same.rfl' _⟩
  | cons e es ih =>
    have h1 := hs.step e
    have h2 := ih h1.1
    refine ⟨h2.1, h2.2.1.trans h1.2.1, h2.2.2.1.trans h1.2.2.1, h2.2.2.2.1.trans h1.2.2.2.1,
      fun h => (h2.2.2.2.2 h).trans (h1.2.2.2.2 h)⟩

/-- the schedule: open the stream; the target's memory fills; the copy buffer fills; then one read brings the rest -/
def schedule (c : Cfg) : List Event :=
  .loop (.read (wire (.create c.id none))) ::
  ((List.replicate c.room [.loop (.read (wire (one c))), .fetch, .give 1]).flatten ++
  ((List.replicate c.cap [.loop (.read (wire (one c))), .fetch]).flatten ++
  (.loop (.read ((List.replicate 100 (one c) ++ tail c).flatMap wire)) ::
  ((List.replicate 100 [.back 1, .answer, .give 1, .fetch]).flatten ++
  [.back c.cap, .give c.cap, .fetch]))))

theorem start_at {c : Cfg} (hopen : ¬ Protected c.server) (hid : IdFits c.id) :
    At c (step c (init c) (.loop (.read (wire (.create c.id none))))) [] none [] 0 0 0 0 := by
  have hd : decodeFrame (wire (.create c.id none)) = (.ok (some (.create c.id none)), []) := by
    have := (C01_frame_roundtrip (.create c.id none) ⟨by simp [BodyFits], hid⟩ [] []).2
    simpa [asReceived] using this
  have hu : c.server.username = none := by by_contra h; exact hopen (.inl h)
  have hp : c.server.password = none := by by_contra h; exact hopen (.inr h)
  have hdn : decodeFrame [] = (.ok none, []) := by decide
  have e : step c (init c) (.loop (.read (wire (.create c.id none)))) =
      { init c with srv := serverStep c.server (serverInit c.server) (.read (wire (.create c.id none))) } := rfl
  rw [e]
  refine ⟨⟨?_, ?_, ?_, ?_, ?_, ?_, ?_, ?_, ?_⟩, ?_, rfl, rfl, rfl, rfl⟩ <;>
    simp [serverStep, Tunnel.step, serverInit, resume, Tunnel.emit, pump_some _ _ hd, pump_none _ _ hdn, serverHandle,
      loginNow, hu, hp, register, lookup, setChan, Tunnel.written]

theorem schedule_freezes (c : Cfg) (hopen : ¬ Protected c.server) (hid : IdFits c.id) (hc : c.chan = 0) (hcap : 0 < c.cap)
    (hcap2 : c.cap < 2 ^ 24) (hroom : c.cap ≤ c.room) :
    Frozen c (run c (schedule c)) ∧ Tunnel.written (run c (schedule c)).srv.trace = [] ∧
    .opened c.id 0 (.proxy none) ∈ (run c (schedule c)).srv.trace := by
  have h0 := start_at hopen hid
  have h1 := fillA hid hc hcap c.room _ 0 h0 (by omega)
  have h2 := fillB hid hc _ c.cap _ 0 h1 (by omega)
  simp only [Nat.zero_add] at h2
  generalize hs2 : List.foldl (step c) _ _ = s2 at h2
  have e : List.replicate 100 (one c) ++ tail c =
      List.replicate 10 (one c) ++ one c :: (List.replicate 89 (one c) ++ tail c) := by
    rw [show (100 : Nat) = 10 + (1 + 89) by rfl, ← List.replicate_append_replicate, ← List.replicate_append_replicate]
    simp
  have h3 := read_many h2.srv h2.buf (List.replicate 10 (one c)) (one c) (List.replicate 89 (one c) ++ tail c)
    (fun f hf => by rw [List.eq_of_mem_replicate hf]; exact one_good hid) (one_good hid) (by simp)
  rw [← e] at h3
  obtain ⟨q, p, rest, h5, hq, hqe⟩ := turns hid hc hcap hcap2 (by omega) 100
    (step c s2 (.loop (.read ((List.replicate 100 (one c) ++ tail c).flatMap wire)))) 0 _ _ _
    ⟨h3.1, h3.2, h2.read, h2.out, h2.hold, h2.inn⟩ (by simp) e.symm rfl
  have h6 := give_step (back_step h5 c.cap (by omega) (by omega)) c.cap (by omega) (by omega)
  have hrun : run c (schedule c) = step c (step c (step c ((List.replicate 100 [Event.back 1, .answer, .give 1, .fetch]).flatten.foldl
      (step c) (step c s2 (.loop (.read ((List.replicate 100 (one c) ++ tail c).flatMap wire))))) (.back c.cap)) (.give c.cap)) .fetch := by
    unfold run schedule
    rw [List.foldl_cons, List.foldl_append, List.foldl_append, List.foldl_cons, List.foldl_append, hs2]
    rfl
  rw [hrun]
  match q, hq with
  | f :: q, hq =>
    have hf : f = .data c.id (List.replicate c.cap 0) := (List.cons.inj hqe).1
    have hqe' : q ++ p :: rest = List.replicate 11 (one c) := (List.cons.inj hqe).2
    have hq9 : q.length = 9 := by simpa using hq
    match rest with
    | [] => have := congrArg List.length hqe'; simp [hq9] at this
    | r :: rest =>
      have hr : Good c r := by
        have : r ∈ List.replicate 11 (one c) := by rw [← hqe']; simp
        rw [List.eq_of_mem_replicate this]; exact one_good hid
      have ht := take_next h6.srv hq9 hr h6.buf
      generalize hs : step c (step c _ (.back c.cap)) (.give c.cap) = s at h6 ht ⊢
      have hout : s.out = [] := List.length_eq_zero_iff.1 (by rw [h6.out]; omega)
      have hqs : (s.srv.chan 0).q = .data c.id (List.replicate c.cap 0) :: q := by rw [h6.srv.chan, hf]
      have e2 : step c s .fetch = { s with srv := serverStep c.server s.srv (.take 0), read := [],
                                           out := List.replicate c.cap 0 } := by
        show (if s.out.length < c.cap then _ else _) = _
        rw [if_pos (by rw [hout]; exact hcap), hc, hqs]
        show ({ s with srv := _, read := _, out := _ } : St) = _
        rw [h6.read, hout]; simp
      rw [e2]
      refine ⟨⟨ht.1.phase, ⟨r, by rw [hc]; exact ht.1.pending⟩, ?_, ?_, ht.1.outq, by simp, ?_, ?_⟩, ht.1.written, ht.1.opened⟩
      · show ((serverStep c.server s.srv (.take 0)).chan c.chan).q.length = _
        rw [hc, ht.1.chan]; simp [hq9, streamCap]
      · show ((serverStep c.server s.srv (.take 0)).chan c.chan).rx = _
        rw [hc, ht.1.chan]
      · show s.hold.length = _
        rw [h6.hold]; omega
      · show s.inn.length = _
        rw [h6.inn]; omega

theorem wire_one (c : Cfg) (hid : IdFits c.id) : (wire (one c)).length = 13 := by
  rw [wire_length (one_good hid).1.1]; rfl

theorem length_flatMap_replicate {α β : Type} (f : α → List β) (x : α) (n : Nat) :
    ((List.replicate n x).flatMap f).length = n * (f x).length := by
  induction n with
  | zero => simp
  | succ n ih => rw [List.replicate_succ, List.flatMap_cons, List.length_append, ih, Nat.succ_mul]; omega

theorem schedule_reads (c : Cfg) (hid : IdFits c.id) (hcap : c.cap ≤ 16384) (bs : Bytes)
    (h : .loop (.read bs) ∈ schedule c) : bs.length ≤ 20480 := by
  have w1 := wire_one c hid
  have w0 : (wire (.create c.id none)).length ≤ 20480 := by
    rw [wire_length (by simp [BodyFits])]; simp [headOf]
  have wb : (wire (.data c.id (List.replicate c.cap 0))).length = 12 + c.cap := by
    rw [wire_length (by simp [BodyFits]; omega)]; simp [headOf]
  have wt : ((List.replicate 100 (one c) ++ tail c).flatMap wire).length ≤ 20480 := by
    simp only [tail, List.flatMap_append, List.flatMap_cons, List.length_append, length_flatMap_replicate, w1, wb]
    omega
  simp only [schedule, List.mem_cons, List.mem_append, List.mem_flatten, List.mem_replicate] at h
  rcases h with h | ⟨l, ⟨_, rfl⟩, h⟩ | ⟨l, ⟨_, rfl⟩, h⟩ | h | ⟨l, ⟨_, rfl⟩, h⟩ | h
  · cases h; exact w0
  · simp at h; subst h; omega
  · simp at h; subst h; omega
  · cases h; exact wt
  · simp at h
  · simp at h

/-! ### the claims -/

/-- **C153** fails for good when the server's proxy is used through the tunnel: the data of one stream goes to a target
    that sends back what it gets, and that takes no more while its answers are not read. The loop of the server's end
    waits for room in the channel of the stream; the proxy's task waits for the target; the target waits for the task to
    read; the task waits for room in the outgoing channel; and only the loop would empty this. From then on, whatever
    any task does, nothing more is read from the tunnel, decoded, delivered to any stream, or written, and no byte that
    is held anywhere in the ring moves. This holds whatever the size of the target's memory (from the size of a copy
    buffer up), with reads of at most 20480 bytes; nobody broke a rule. -/
theorem C153_ring_fails (c : Cfg) (hopen : ¬ Protected c.server) (hid : IdFits c.id) (hc : c.chan = 0) (hcap : 0 < c.cap)
    (hcap2 : c.cap ≤ 16384) (hroom : c.cap ≤ c.room) :
    ∃ es, (∀ bs, .loop (.read bs) ∈ es → bs.length ≤ 20480) ∧
      .opened c.id 0 (.proxy none) ∈ (run c es).srv.trace ∧
      (run c es).hold.length = c.room ∧ (run c es).inn ≠ [] ∧ (run c es).out ≠ [] ∧
      ∀ es', (run c (es ++ es')).srv.phase = .running ∧ (run c (es ++ es')).inn.length = (run c es).inn.length ∧
        (run c (es ++ es')).out.length = (run c es).out.length ∧
        (run c (es ++ es')).hold.length = (run c es).hold.length ∧
        Tunnel.written (run c (es ++ es')).srv.trace = [] ∧
        gots (run c (es ++ es')).srv.trace = gots (run c es).srv.trace ∧
        arrived (run c (es ++ es')).srv.trace = arrived (run c es).srv.trace ∧
        ∀ h, puts h (run c (es ++ es')).srv.trace = puts h (run c es).srv.trace := by
  obtain ⟨hF, hw, ho⟩ := schedule_freezes c hopen hid hc hcap (by omega) hroom
  refine ⟨schedule c, schedule_reads c hid hcap2, ho, hF.hold, ?_, ?_, ?_⟩
  · intro h; have := hF.inn; rw [h] at this; simp at this; omega
  · intro h; have := hF.out; rw [h] at this; simp at this; omega
  · intro es'
    have hr : run c (schedule c ++ es') = es'.foldl (step c) (run c (schedule c)) := by simp [run, List.foldl_append]
    obtain ⟨hF', hs⟩ := hF.run es'
    rw [hr]
    exact ⟨hF'.phase, by rw [hF'.inn, hF.inn], by rw [hF'.out, hF.out], by rw [hF'.hold, hF.hold], by rw [hs.1, hw],
      hs.2.1, hs.2.2.1, hs.2.2.2⟩

example : ∃ c : Cfg, ¬ Protected c.server ∧ IdFits c.id ∧ c.chan = 0 ∧ c.cap = 8192 ∧ c.room = 1000000 :=
  ⟨⟨⟨none, none, []⟩, 1, 0, 8192, 1000000⟩, by simp [Protected], by unfold IdFits; decide, rfl, rfl, rfl⟩

/-- **C153** (what holds) No byte is lost, repeated or overtaken in the ring, in any step of any history: of the bytes on
    their way (read from the stream, to the target, at the target, back from the target), the step hands some at the front to
    the tunnel, as one message of the stream, or adds the payload of the first message in the channel of the stream at the
    end, which is taken from the channel then, and changes nothing else. -/
theorem C153_ring_bytes_partial (c : Cfg) (es : List Event) (e : Event) :
    ∃ given taken,
      given ++ ((run c (es ++ [e])).inn ++ (run c (es ++ [e])).hold ++ (run c (es ++ [e])).out ++ (run c (es ++ [e])).read) =
        (run c es).inn ++ (run c es).hold ++ (run c es).out ++ (run c es).read ++ taken ∧
      (given ≠ [] → e = .answer ∧ (run c (es ++ [e])).srv.outq = (run c es).srv.outq ++ [.data c.id given]) ∧
      (taken ≠ [] → e = .fetch ∧ (∃ i q, ((run c es).srv.chan c.chan).q = .data i taken :: q) ∧
        (run c (es ++ [e])).srv = Tunnel.serverStep c.server (run c es).srv (.take c.chan)) := by
  have hr : run c (es ++ [e]) = step c (run c es) e := by simp [run, List.foldl_append]
  rw [hr]
  generalize run c es = s
  cases e with
  | loop e => exact ⟨[], [], by simp only [step]; split <;> simp, by simp, by simp⟩
  | submit f => exact ⟨[], [], by simp [step], by simp, by simp⟩
  | take h => exact ⟨[], [], by simp only [step]; split <;> simp, by simp, by simp⟩
  | dropRx h => exact ⟨[], [], by simp only [step]; split <;> simp, by simp, by simp⟩
  | give n =>
    refine ⟨[], [], ?_, by simp, by simp⟩
    simp only [step, List.nil_append, List.append_nil]
    simp only [List.append_assoc, ← List.append_assoc (List.take _ s.out), List.take_append_drop]
  | back n =>
    refine ⟨[], [], ?_, by simp, by simp⟩
    simp only [step, List.nil_append, List.append_nil]
    simp only [List.append_assoc, ← List.append_assoc (List.take _ s.hold), List.take_append_drop]
  | answer =>
    by_cases h : s.inn ≠ [] ∧ s.srv.phase = .running ∧ s.srv.outq.length < Tunnel.outCap
    · refine ⟨s.inn, [], by simp only [step]; rw [if_pos h]; simp, fun _ => ⟨rfl, ?_⟩, by simp⟩
      simp only [step]; rw [if_pos h]
      show (if s.srv.phase = .running ∧ s.srv.outq.length < outCap then _ else _ : Tunnel.St).outq = _
      rw [if_pos h.2]; rfl
    · exact ⟨[], [], by simp only [step]; rw [if_neg h]; simp, by simp, by simp⟩
  | fetch =>
    by_cases h : s.out.length < c.cap
    · cases hq : (s.srv.chan c.chan).q with
      | nil =>
        refine ⟨[], [], ?_, by simp, by simp⟩
        simp only [step, if_pos h, hq, List.nil_append, List.append_nil]
        simp only [List.append_assoc, List.take_append_drop]
      | cons f q =>
        cases f with
        | data i d =>
          refine ⟨[], d, ?_, by simp, fun _ => ⟨rfl, ⟨i, q, rfl⟩, by simp only [step, if_pos h, hq]⟩⟩
          simp only [step, if_pos h, hq, List.nil_append]
          simp only [List.append_assoc, List.take_append_drop]
        | _ => exact ⟨[], [], by simp [step, if_pos h, hq], by simp, by simp⟩
    · exact ⟨[], [], by simp only [step]; rw [if_neg h]; simp, by simp, by simp⟩

example : (step ⟨⟨none, none, []⟩, 1, 0, 2, 5⟩ ⟨Tunnel.serverInit ⟨none, none, []⟩, [1, 2, 3], [], [], []⟩ .fetch).out = [1, 2] := by
  decide

end Wm.Ring
