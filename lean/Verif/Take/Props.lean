/-
C103: the start of a daemon, alone and beside another one. C104: the sockets it is handed.
-/
import Verif.Take.WorksLemmas
namespace Gdnsd.Take
open TakeSpec CssSpec
open Css (Entry Cfg msg msgKey msgV msgD Acts cfgEx envEx ask)
open CtlSpec (taken)

/-- A check of the configuration touches neither the lock nor a socket, and succeeds just if all that it checks
does. -/
theorem C103_checkconf {e : Env} (h : e.check = true) (hu : ¬ (e.replace = true ∧ e.idem = true)) :
    (∀ y ∈ (main e).1, y = .conf ∨ y = .zones ∨ y = .exit 0 ∨ y = .exit 42) ∧
    (.exit 0 ∈ (main e).1 ↔ e.paths = true ∧ e.socks = true ∧ e.conf = true ∧ e.zones = true) := by
  unfold main
  rw [if_neg hu, h]
  cases e.paths <;> cases e.socks <;> cases e.conf <;> cases e.zones <;> simp [Boot.bind, Boot.pure, part, die]

/-- With `-i`, the exit status is 0 just if another daemon has the lock, and nothing else happens then. -/
theorem C103_idempotent {e : Env} (hc : e.check = false) (hr : e.replace = false) (hi : e.idem = true) (hp : e.paths = true) (hs : e.socks = true) :
    (.exit 0 ∈ (main e).1 ↔ e.lock1 = .busy) ∧ (e.lock1 = .busy → (main e).1 = [.busy, .exit 0]) := by
  have h2 : e.lock1 = .busy → (main e).1 = [.busy, .exit 0] := by
    intro hl
    simp [main, hc, hr, hi, hp, hs, hl, first, join, Boot.bind, Boot.pure, part, die]
  refine ⟨⟨fun h => ((main_tells hc h).1 rfl).1, fun h => by rw [h2 h]; simp⟩, h2⟩

/-- Without `-i` and `-R`, a second daemon just fails. -/
theorem C103_refused {e : Env} (hc : e.check = false) (hr : e.replace = false) (hi : e.idem = false) (hp : e.paths = true) (hs : e.socks = true) (hl : e.lock1 = .busy) :
    (main e).1 = [.busy, .exit 42] := by
  simp [main, hc, hr, hi, hp, hs, hl, first, join, Boot.bind, Boot.pure, part, die]

/-- At every point of a start: the control socket of another daemon is removed by none but the holder of the lock,
nothing is sent unless another daemon has it, and a daemon serves only once all of its sockets and threads are there
and with the lock, its own or the one it was handed. -/
theorem C103_alone {e : Env} {p : List Eff} (h : p <+: (main e).1) :
    (.unlink ∈ p → .lock ∈ p) ∧ (bytes p ≠ [] → .busy ∈ p) ∧ (.serve ∈ p → Up p ∧ (.lock ∈ p ∨ ∃ lk ct ts c, .took lk ct ts c ∈ p)) ∧
    ∀ lk ct ts c, .took lk ct ts c ∈ p → Ready p ∧ .busy ∈ p :=
  let s := main_safe h
  ⟨s.unlink, s.talk, s.serve, fun lk ct ts c h0 => s.took ⟨lk, ct, ts, c, h0⟩⟩

/-- **No gap.** However far the start of the new daemon has come, and wherever it ends: the old daemon has been stopped
by it only if the new one answers on all its sockets, has handed out descriptors only if nothing is left to do that may take
long, and challenges only if the zones are loaded and the monitors started. Nothing else is asked of it. -/
theorem C103_no_gap {e : Env} {p : List Eff} {cfg s l} {id : Nat} (hp : p <+: (main e).1) (h : Run cfg s l) (ht : taken id l <+: bytes p) :
    (.stop id ∈ l → Up p) ∧ (∀ b x f, .out id b (x :: f) ∈ l → Ready p) ∧ (.share id ∈ l → Loaded p) ∧
    (∀ n d, .chal id n d ∉ l) ∧ .flush id ∉ l ∧ ∀ n, .spawn id n ∉ l := by
  obtain ⟨xs, h1, h2, h3⟩ := (main_safe hp).says
  have hkey : ∀ m ∈ xs, msgKey m ≠ 67 ∧ msgKey m ≠ 99 ∧ msgKey m ≠ 82 := by
    intro m hm
    have := (h2 m hm).2.1
    simp only [List.mem_cons, List.not_mem_nil, or_false] at this
    rcases this with h0 | h0 | h0 | h0 | h0 <;> rw [h0] <;> decide
  have hr := reqs_prefix h (ht.trans h1) (fun m hm => (h2 m hm).1) fun m hm => (hkey m hm).1
  have hmem : ∀ {y k}, y ∈ l → Acts id k y → ∃ m ∈ xs, msgKey m = k := by
    intro y k hy hk
    obtain ⟨a, b, rfl⟩ := List.append_of_mem hy
    obtain ⟨r, hr1, hr2⟩ := acts_turn h rfl hk
    obtain ⟨x, z, rfl, _⟩ := hr1.last r rfl
    exact ⟨r, hr.subset (mem_reqs.mpr (by simp)), hr2⟩
  refine ⟨fun h0 => ?_, fun b x f h0 => ?_, fun h0 => ?_, fun n d h0 => ?_, fun h0 => ?_, fun n h0 => ?_⟩
  · obtain ⟨m, hm, hk⟩ := hmem h0 Acts.stop
    exact (h2 m hm).2.2.2.2 hk
  · obtain ⟨a, c, rfl⟩ := List.append_of_mem h0
    have hf := (((Css.run_k h).a.conn id).1 a _ c rfl).out b (x :: f) rfl
    obtain ⟨n, hn1, _, hn3⟩ := fds_reqs (id := id) h (a := a) (b := .out id b (x :: f) :: c) rfl
    have hn : n ≠ 0 := by
      rintro rfl
      rw [hn1] at hf
      have := hf.2.length_le
      simp at this
    have : 0 < (reqs id a).countP (msgKey · = 84) := by omega
    obtain ⟨m, hm, hk⟩ := List.countP_pos_iff.mp this
    refine (h2 m (hr.subset ?_)).2.2.2.1 (by simpa using hk)
    rw [reqs_append]
    exact List.mem_append.mpr (Or.inl hm)
  · obtain ⟨m, hm, hk⟩ := hmem h0 Acts.share
    exact (h2 m hm).2.2.1 hk
  · obtain ⟨m, hm, hk⟩ := hmem h0 Acts.chal
    exact (hkey m hm).1 hk
  · obtain ⟨m, hm, hk⟩ := hmem h0 Acts.flush
    exact (hkey m hm).2.1 hk
  · obtain ⟨m, hm, hk⟩ := hmem h0 Acts.spawn
    exact (hkey m hm).2.2 hk

/-- **It works.** If all parts succeed and the old daemon acknowledges what it is asked, its challenges coming in any pieces, then
the new daemon does all that it should, in this order. -/
theorem C103_works {e : Env} {x1 x2 x3 x4 x5 tx m1 m2 m3 m5 rx lk ct fds} {bs : List Bytes} (hc : e.check = false) (hr : e.replace = true) (hi : e.idem = false) (hp : e.paths = true) (hs : e.socks = true)
    (hl1 : e.lock1 = .busy) (hl2 : e.lock2 = .busy) (hconf : e.conf = true) (hz : e.zones = true) (hset : e.setup = true) (hmon : e.mon = true) (hch : ∀ n d, e.chal n d = true) (hpre : e.prerun = true)
    (hlis : e.listen = true) (hb : e.binds = true) (hst : e.starts = true)
    (hcon : e.conn = some ⟨x1 :: x2 :: x3 :: x4 :: x5 :: tx, .got m1 :: .got m2 :: .got m3 :: (bs.map .got ++ .got m5 :: rx), [], [], false⟩)
    (hx : ∀ x ∈ [x1, x2, x3, x4, x5], CtlSpec.Takes x) (hm : ∀ m ∈ [m1, m2, m3, m5], m.length = 8 ∧ msgKey m = 65) (hv : 2 * 65536 + 99 * 256 + 200 ≤ msgV m1) (hd : msgD m3 = bs.flatten.length) (hne : ∀ b ∈ bs, b ≠ [])
    (hg : getFds none [] e.msgs = some (lk :: ct :: fds)) :
    (main e).1 = [.busy, .say (msg 73 e.version 0), .say (msg 49 0 e.pid), .conf, .zones, .monitored, .say (msg 50 0 e.pid), .challenges (msgV m3) bs.flatten, .prerun, .say (msg 84 0 e.pid),
      .took lk ct (importFds e.kind e.threads fds).1 (importFds e.kind e.threads fds).2, .listening, .bound (((importFds e.kind e.threads fds).1.filter fun t => t.sock = none).map fun t => (t.udp, t.addr)),
      .threads, .ready, .say (msg 88 0 0), .serve] := by
  have hx1 := hx x1 (by simp)
  have hx2 := hx x2 (by simp)
  have hx3 := hx x3 (by simp)
  have hx4 := hx x4 (by simp)
  have hx5 := hx x5 (by simp)
  have hm1 := hm m1 (by simp)
  have hm2 := hm m2 (by simp)
  have hm3 := hm m3 (by simp)
  have hm5 := hm m5 (by simp)
  have e1 : connect e = ([.say (msg 73 e.version 0)], some (⟨msgD m1, msgV m1⟩, ⟨x2 :: x3 :: x4 :: x5 :: tx, .got m2 :: .got m3 :: (bs.map .got ++ .got m5 :: rx), msg 73 e.version 0, m1, false⟩)) := by
    unfold connect
    rw [hcon]
    dsimp only
    rw [Ctl.txn_coop rfl rfl hx1 rfl hm1.1, if_pos hm1.2]
    dsimp only
    rw [said_add (b := msg 73 e.version 0) rfl rfl]; rfl
  obtain ⟨c2, e2, h2t, h2r⟩ : ∃ c2, tak1 e ⟨msgD m1, msgV m1⟩ ⟨x2 :: x3 :: x4 :: x5 :: tx, .got m2 :: .got m3 :: (bs.map .got ++ .got m5 :: rx), msg 73 e.version 0, m1, false⟩ = ([.say (msg 49 0 e.pid)], some c2) ∧
      c2.tx = x3 :: x4 :: x5 :: tx ∧ c2.rx = .got m3 :: (bs.map .got ++ .got m5 :: rx) := by
    unfold tak1
    rw [if_pos (by simpa [modern] using hv), Ctl.txn_coop rfl rfl hx2 rfl hm2.1, if_pos hm2.2]
    dsimp only
    rw [said_add (b := msg 49 0 e.pid) rfl rfl]
    exact ⟨_, rfl, rfl, rfl⟩
  obtain ⟨c3, e3, h3t, h3r⟩ : ∃ c3, tak2 e ⟨msgD m1, msgV m1⟩ c2 = ([.say (msg 50 0 e.pid), .challenges (msgV m3) bs.flatten], some c3) ∧ c3.tx = x4 :: x5 :: tx ∧ c3.rx = .got m5 :: rx := by
    unfold tak2 Ctl.txnGet
    rw [if_pos (by simpa [modern] using hv), Ctl.txn_coop rfl h2t hx3 h2r hm3.1, if_pos hm3.2]
    dsimp only
    obtain ⟨i, ef, hpull⟩ := pull_all bs (f := (bs.map Ctl.Rx.got ++ Ctl.Rx.got m5 :: rx).length + 1) (c := { c2 with tx := x4 :: x5 :: tx, rx := bs.map .got ++ .got m5 :: rx, out := c2.out ++ msg 50 0 e.pid, inp := c2.inp ++ m3 }) (r := .got m5 :: rx) (by simp; omega) hne rfl
    rw [hd, hpull]
    dsimp only
    rw [said_add (b := msg 50 0 e.pid) rfl rfl, hch]
    exact ⟨_, rfl, rfl, rfl⟩
  obtain ⟨c4, e4, h4t, h4r⟩ : ∃ c4, second e c3 = ([.say (msg 84 0 e.pid), .took lk ct (importFds e.kind e.threads fds).1 (importFds e.kind e.threads fds).2, .listening], some (some c4, (importFds e.kind e.threads fds).1)) ∧
      c4.tx = x5 :: tx ∧ c4.rx = .got m5 :: rx := by
    unfold second
    rw [hl2]
    dsimp only
    rw [send_coop rfl h3t hx4]
    dsimp only
    rw [said_add (b := msg 84 0 e.pid) rfl rfl, if_neg (by simp), hg, hlis]
    exact ⟨_, rfl, rfl, h3r⟩
  have e5 : finish e (some c4) (importFds e.kind e.threads fds).1 = ([.bound (((importFds e.kind e.threads fds).1.filter fun t => t.sock = none).map fun t => (t.udp, t.addr)), .threads, .ready, .say (msg 88 0 0), .serve], none) := by
    unfold finish
    dsimp only
    rw [Ctl.txn_coop rfl h4t hx5 h4r hm5.1]
    dsimp only
    rw [said_add (b := msg 88 0 0) rfl rfl, hb, hst]
    rfl
  unfold main
  simp [hc, hr, hi, hp, hs, hl1, hconf, hz, hset, hmon, hpre, first, join, e1, e2, challenge, e3, replaceOld, e4, e5, Boot.bind, Boot.pure, part]

/-- A daemon alone starts, if all of its parts succeed. -/
theorem C103_works_alone {e : Env} (hc : e.check = false) (hri : ¬ (e.replace = true ∧ e.idem = true)) (hp : e.paths = true) (hs : e.socks = true)
    (hl1 : e.lock1 = .got) (hu : e.unlinks = true) (hlis : e.listen = true) (hconf : e.conf = true) (hz : e.zones = true) (hset : e.setup = true) (hmon : e.mon = true) (hpre : e.prerun = true)
    (hb : e.binds = true) (hst : e.starts = true) :
    (main e).1 = [.lock, .unlink, .listening, .conf, .zones, .monitored, .prerun, .bound ((e.threads.filter fun t => t.sock = none).map fun t => (t.udp, t.addr)), .threads, .ready, .serve] := by
  unfold main
  rw [if_neg hri]
  simp [hc, hp, hs, hl1, hu, hlis, hconf, hz, hset, hmon, hpre, hb, hst, first, sockets, join, challenge, replaceOld, finish, Boot.bind, Boot.pure, part]

/-- Descriptors that come in messages with the right headers are all received, however many to a message. -/
theorem C104_received {fds n us rest} (h : Carries fds n us) (hn : fds.length = n) (h2 : 2 ≤ n) : getFds none [] (us ++ rest) = some fds := by
  obtain ⟨cs, rfl, hne, bs, hl, hb, rfl⟩ := h
  have hcs : cs ≠ [] := by rintro rfl; simp at hn; omega
  simpa using getFds_complete (w := none) (acc := []) (rest := rest) hne hl hb hcs (by simp) (by simpa using hn) h2

/-- Descriptors are used only if all that were announced have come. -/
theorem C104_received_only {ms r} (h : getFds none [] ms = some r) : ∃ us rest, ms = us ++ rest ∧ Carries r r.length us ∧ 2 ≤ r.length := by
  obtain ⟨us, rest, fds, n, h1, h2, h3, _, h5, h6, _⟩ := getFds_sound h rfl
  rw [List.nil_append] at h2
  subst h2
  exact ⟨us, rest, h1, by rw [h5]; exact h3, by omega⟩

/-- What the sockets that were handed over become: every thread keeps what it has or gets one that fits; each socket goes to
one thread or is closed, and is closed only if no thread for it is without; `EBADF` alone is left alone. -/
theorem C104_import {kind ts fds ts' closed} (h : importFds kind ts fds = (ts', closed)) :
    Each (Given kind) ts ts' ∧ (got ts ts' ++ closed ++ fds.filter fun fd => kind fd = .bad).Perm fds ∧
    ∀ fd ∈ closed, ∀ t ∈ ts', Fits (kind fd) t → t.sock ≠ none := by
  have m := importFds_moves h
  refine ⟨m.given, m.perm, fun fd hfd t ht hfit => ?_⟩
  obtain ⟨a, ha, hs⟩ := hfit
  exact free_zero.mp (m.full fd hfd _ _ ha) t ht rfl (same_iff.mpr hs)

/-- **All of them.** If the new daemon has got descriptors over a connection to the old one, then they are all the descriptors of that
one: the lock, the control socket, and the sockets of DNS, which go to threads as `C104_import` tells. -/
theorem C104_handed {e : Env} {p : List Eff} {cfg s l} {id lk ct ts c} (hc : e.check = false) (hp : p <+: (main e).1) (hcfg : CfgOk cfg) (h : Run cfg s l) (ht : taken id l <+: bytes p) (hm : Received e.msgs id l)
    (htook : .took lk ct ts c ∈ p) : ∃ fds, cfg.fds = lk :: ct :: fds ∧ importFds e.kind e.threads fds = (ts, c) := by
  obtain ⟨_, _, fds, hg, hi⟩ := (main_tells hc (hp.subset htook)).2.1 lk ct ts c rfl
  refine ⟨fds, ?_, hi⟩
  obtain ⟨xs, h1, h2, h3⟩ := (main_safe hp).says
  have h67 : ∀ m ∈ xs, msgKey m ≠ 67 := by
    intro m hm h0
    have := (h2 m hm).2.1
    rw [h0] at this
    exact absurd this (by decide)
  have hr := reqs_prefix h (ht.trans h1) (fun m hm => (h2 m hm).1) h67
  obtain ⟨n, hn1, _, hn3⟩ := fds_reqs (id := id) h (a := l) (b := []) (by simp)
  have hcount : (reqs id l).countP (msgKey · = 84) ≤ 1 := Nat.le_trans (hr.sublist.countP_le) (nodup_count h3)
  obtain ⟨us, rest, fs, k, hms, hr2, ⟨cs, hcs, hne, bs, hbl, hbs, hus⟩, _, hlen, h2k, husne⟩ := getFds_sound hg rfl
  rw [List.nil_append] at hr2
  -- the descriptors are of the daemon, in order
  have hfl : ∀ {bs : List Bytes} {cs : List (List Nat)}, bs.length = cs.length → ((bs.zip cs).map fun x => RxMsg.got x.1 (some x.2) false).flatMap fdsOf = cs.flatten := by
    intro bs
    induction bs with
    | nil => intro cs hl; cases cs with | nil => rfl | cons => simp at hl
    | cons b bs ih =>
      intro cs hl
      cases cs with
      | nil => simp at hl
      | cons c cs => simp only [List.zip_cons_cons, List.map_cons, List.flatMap_cons, List.flatten_cons, fdsOf]; rw [ih (by simpa using hl)]
  have hpre : lk :: ct :: fds <+: sentFds id l := by
    have := hm.2
    rw [hms, List.flatMap_append, hus, hfl hbl, ← hcs, ← hr2] at this
    exact (List.prefix_append _ _).trans this
  have hpre2 := hpre.trans (Css.C73_prefix h id).2
  rw [hn1] at hpre2
  have hn : n = 1 := by
    have : n ≠ 0 := by rintro rfl; simp at hpre2
    omega
  subst hn
  have hpre3 : lk :: ct :: fds <+: cfg.fds := by simpa using hpre2
  -- and there are as many as announced
  have hk : k = cfg.fds.length := by
    cases bs with
    | nil => rw [hus] at husne; exact absurd rfl husne
    | cons b bs =>
      cases cs with
      | nil => simp at hbl
      | cons c0 cs =>
        have hc0 := hne c0 (by simp)
        cases c0 with
        | nil => exact absurd rfl hc0
        | cons x f =>
          have hmem : .got b (some (x :: f)) false ∈ e.msgs := by rw [hms, hus]; simp
          obtain ⟨a, z, hl⟩ := List.append_of_mem (hm.1 b x f false hmem)
          have hb := (out_header h id).2 hl
          have := (hbs b (by simp)).2.2
          rw [hb] at this
          rw [← this]
          have hv := (Css.header_msg (k := 65) (v := cfg.fds.length) (d := 0)).2.2.1
          rw [hv]
          exact Nat.mod_eq_of_lt (by have := hcfg.2.1; omega)
  refine (List.IsPrefix.eq_of_length hpre3 ?_).symm
  rw [hlen, hk]

/-- **No new sockets.** If, besides, the old daemon's sockets are those of the new configuration, in any order, then all of the threads get theirs,
none is closed, and none is bound anew. -/
theorem C104_same {e : Env} {p : List Eff} {lk ct ts c us} (hc : e.check = false) (hp : p <+: (main e).1) (htook : .took lk ct ts c ∈ p) (h0 : ∀ t ∈ e.threads, t.sock = none)
    (hf : ∀ r, getFds none [] e.msgs = some r → Each (fun fd t => Fits (e.kind fd) t) (r.drop 2) us) (hu : us.Perm e.threads) :
    (∀ t ∈ ts, t.sock ≠ none) ∧ c = [] ∧ ∀ new, .bound new ∈ p → new = [] := by
  obtain ⟨hl1, hl2, fds, hg, hi⟩ := (main_tells hc (hp.subset htook)).2.1 lk ct ts c rfl
  have hfd := hf _ hg
  have hall := all_placed hi h0 hu hfd
  refine ⟨hall.1, hall.2, fun new hn => ?_⟩
  rcases (main_tells hc (hp.subset hn)).2.2 new rfl with ⟨h1, _⟩ | ⟨_, _, lk', ct', fds', hg', rfl⟩
  · rw [hl1, hl2] at h1; rcases h1 with h1 | h1 <;> cases h1
  · rw [hg] at hg'
    simp only [Option.some.injEq, List.cons.injEq] at hg'
    obtain ⟨rfl, rfl, rfl⟩ := hg'
    rw [hi]
    simp only [fresh, List.map_eq_nil_iff, List.filter_eq_nil_iff, decide_eq_true_eq]
    exact hall.1

/-! ### Examples -/

def addrEx (n : UInt8) : Addr := ⟨false, [192, 0, 2, n], 53, 0⟩

def kindEx : Nat → Kind
  | 12 => .sock true (addrEx 1)
  | 13 => .sock false (addrEx 1)
  | _ => .noname

/-- A replacement of process 200 that succeeds. -/
def okEx : Env where
  check := false
  replace := true
  idem := false
  version := 0x030000
  pid := 200
  paths := true
  socks := true
  lock1 := .busy
  conn := some ⟨[.part 8, .part 8, .part 8, .part 8, .part 8], [.got (msg 65 0x030000 100), .got (msg 65 0 0), .got (msg 65 0 0), .got (msg 65 0 0)], [], [], false⟩
  conf := true
  zones := true
  setup := true
  mon := true
  chal := fun _ _ => true
  prerun := true
  lock2 := .busy
  msgs := [.got (msg 65 4 0) (some [10, 11, 12, 13]) false]
  kind := kindEx
  threads := [⟨false, addrEx 1, none⟩, ⟨true, addrEx 1, none⟩]
  unlinks := true
  listen := true
  binds := true
  starts := true

def startEx : List Eff :=
  [.busy, .say (msg 73 0x030000 0), .say (msg 49 0 200), .conf, .zones, .monitored, .say (msg 50 0 200), .challenges 0 [], .prerun, .say (msg 84 0 200),
    .took 10 11 [⟨false, addrEx 1, some 13⟩, ⟨true, addrEx 1, some 12⟩] [], .listening, .bound [], .threads, .ready, .say (msg 88 0 0), .serve]

example : (main okEx).1 = startEx := by decide +kernel

def runEx103 : List Css.Event :=
  [.accept none, .read 0 (.got (msg 73 0x030000 0)) envEx, .write 0 (.part 8), .read 0 (ask 49 200) envEx, .write 0 (.part 8), .read 0 (ask 50 200) envEx, .write 0 (.part 8),
    .read 0 (ask 84 200) envEx, .write 0 (.part 8), .read 0 (ask 88 0) envEx]

def logEx103 : List Entry :=
  [.accept 0 none, .req 0 (msg 73 0x030000 0), .resp 0 (msg 65 0x030000 100) [] false, .out 0 (msg 65 0x030000 100) [],
    .req 0 (msg 49 0 200), .takeover 0 200, .resp 0 (plain 65) [] false, .out 0 (plain 65) [],
    .req 0 (msg 50 0 200), .share 0, .resp 0 (plain 65) [] false, .out 0 (plain 65) [],
    .req 0 (msg 84 0 200), .resp 0 (msg 65 4 0) [] true, .out 0 (msg 65 4 0) [10, 11, 12, 13],
    .req 0 (msg 88 0 0), .stop 0, .resp 0 (plain 65) [] false, .out 0 (plain 65) []]

theorem run103 : ∃ s, Run cfgEx s logEx103 := let ⟨s, h, _⟩ := Css.run_of (cfg := cfgEx) (es := runEx103) (l := logEx103) (by decide) (by decide +kernel); ⟨s, h⟩

/-- The hypotheses of `C103_no_gap`, `C104_handed` and `C104_same` can be met, with a daemon that is stopped. -/
example : ∃ s, startEx <+: (main okEx).1 ∧ Run cfgEx s logEx103 ∧ taken 0 logEx103 <+: bytes startEx ∧ Received okEx.msgs 0 logEx103 ∧ .stop 0 ∈ logEx103 ∧ .out 0 (msg 65 4 0) (10 :: [11, 12, 13]) ∈ logEx103 ∧ .share 0 ∈ logEx103 := by
  obtain ⟨s, h⟩ := run103
  refine ⟨s, ?_, h, ?_, ⟨?_, ?_⟩, by decide, by decide, by decide⟩
  · rw [show (main okEx).1 = startEx by decide +kernel]; exact List.prefix_refl _
  · rw [show taken 0 logEx103 = bytes startEx by decide +kernel]; exact List.prefix_refl _
  · intro b x f t hm
    simp only [okEx, List.mem_singleton, RxMsg.got.injEq, Option.some.injEq, List.cons.injEq] at hm
    obtain ⟨rfl, ⟨rfl, rfl⟩, _⟩ := hm
    decide
  · rw [show sentFds 0 logEx103 = [10, 11, 12, 13] by decide +kernel]; exact List.prefix_refl _

example : okEx.check = false ∧ CfgOk cfgEx ∧ .took 10 11 [⟨false, addrEx 1, some 13⟩, ⟨true, addrEx 1, some 12⟩] [] ∈ startEx := by decide

example : (∀ t ∈ okEx.threads, t.sock = none) ∧ (∀ r, getFds none [] okEx.msgs = some r → Each (fun fd t => Fits (okEx.kind fd) t) (r.drop 2) [⟨true, addrEx 1, none⟩, ⟨false, addrEx 1, none⟩]) ∧
    List.Perm [(⟨true, addrEx 1, none⟩ : Thread), ⟨false, addrEx 1, none⟩] okEx.threads := by
  refine ⟨by decide, fun r hr => ?_, List.Perm.swap _ _ _⟩
  have : r = [10, 11, 12, 13] := by
    have h0 : getFds none [] okEx.msgs = some [10, 11, 12, 13] := by decide +kernel
    rw [h0] at hr; exact (Option.some.inj hr).symm
  subst this
  exact .cons ⟨addrEx 1, rfl, rfl, rfl, rfl⟩ (.cons ⟨addrEx 1, rfl, rfl, rfl, rfl⟩ .nil)

/-- The hypotheses of `C103_works` about the connection. -/
example : okEx.conn = some ⟨.part 8 :: .part 8 :: .part 8 :: .part 8 :: .part 8 :: [], .got (msg 65 0x030000 100) :: .got (msg 65 0 0) :: .got (msg 65 0 0) :: (([] : List Bytes).map .got ++ .got (msg 65 0 0) :: []), [], [], false⟩ ∧
    (∀ m ∈ [msg 65 0x030000 100, msg 65 0 0], m.length = 8 ∧ msgKey m = 65) ∧ 2 * 65536 + 99 * 256 + 200 ≤ msgV (msg 65 0x030000 100) ∧ getFds none [] okEx.msgs = some [10, 11, 12, 13] :=
  ⟨rfl, by decide, by decide, by decide +kernel⟩

/-- A start that cannot bind ends, and the old daemon goes on. -/
example : (main { okEx with binds := false }).1 = startEx.take 12 ++ [.exit 42] := by decide +kernel

example : (main { okEx with check := true, replace := false }).1 = [.conf, .zones, .exit 0] := by decide +kernel
example : (main { okEx with replace := false, idem := true }).1 = [.busy, .exit 0] := by decide +kernel
example : (main { okEx with lock1 := .got }).1 = [.lock, .unlink, .listening, .conf, .zones, .monitored, .prerun, .bound [(false, addrEx 1), (true, addrEx 1)], .threads, .ready, .serve] := by decide +kernel

/-- More descriptors than go into a message. -/
example : Carries [10, 11, 12] 3 [.got (msg 65 3 0) (some [10, 11]) false, .got (msg 65 3 0) (some [12]) false] :=
  ⟨[[10, 11], [12]], rfl, by decide, [msg 65 3 0, msg 65 3 0], rfl, by decide, rfl⟩

example : importFds kindEx [⟨true, addrEx 1, none⟩, ⟨true, addrEx 2, none⟩] [12, 13, 12] = ([⟨true, addrEx 1, some 12⟩, ⟨true, addrEx 2, none⟩], [13, 12]) := by decide

/-- **The wrong interface.** Addresses are compared without their scope (libgdnsd/net.c:319-333): if two listeners have the same link-local address on two
interfaces, and one of them is taken out of the configuration, then the other one may get its socket. -/
theorem C104_false_scope : ∃ kind ts fds ts' c fd t a, importFds kind ts fds = (ts', c) ∧ t ∈ ts' ∧ t.sock = some fd ∧ kind fd = .sock t.udp a ∧ a.scope ≠ t.addr.scope ∧
    ∃ fd' ∈ c, kind fd' = .sock t.udp t.addr := by
  let ll : Nat → Addr := fun s => ⟨true, [0xfe, 0x80, 0, 0, 0, 0, 0, 0, 0, 0, 0, 0, 0, 0, 0, 1], 53, s⟩
  exact ⟨fun fd => .sock true (ll fd), [⟨true, ll 3, none⟩], [2, 3], [⟨true, ll 3, some 2⟩], [3], 2, ⟨true, ll 3, some 2⟩, ll 2, by decide, by simp, rfl, rfl, by decide, 3, by simp, rfl⟩

/-- **Two daemons.** If the request to stop cannot be sent, then the new daemon serves all the same (src/main.c:559-573), and the old one has not been asked to end. -/
theorem C103_false_stop : ∃ e lk ct ts c, .took lk ct ts c ∈ (main e).1 ∧ .serve ∈ (main e).1 ∧
    ∀ cfg s l id, Run cfg s l → taken id l <+: bytes (main e).1 → .stop id ∉ l := by
  refine ⟨{ okEx with conn := some ⟨[.part 8, .part 8, .part 8, .part 8, .fail], [.got (msg 65 0x030000 100), .got (msg 65 0 0), .got (msg 65 0 0)], [], [], false⟩ }, 10, 11,
    [⟨false, addrEx 1, some 13⟩, ⟨true, addrEx 1, some 12⟩], [], by decide +kernel, by decide +kernel, ?_⟩
  intro cfg s l id h ht hs
  obtain ⟨a, b, rfl⟩ := List.append_of_mem hs
  obtain ⟨r, hr1, hr2⟩ := acts_turn h rfl Acts.stop
  obtain ⟨x, z, rfl, _⟩ := hr1.last r rfl
  have := reqs_prefix (xs := [msg 73 0x030000 0, msg 49 0 200, msg 50 0 200, msg 84 0 200]) h (by
    refine ht.trans ?_
    rw [show bytes (main { okEx with conn := some ⟨[.part 8, .part 8, .part 8, .part 8, .fail], [.got (msg 65 0x030000 100), .got (msg 65 0 0), .got (msg 65 0 0)], [], [], false⟩ }).1
      = [msg 73 0x030000 0, msg 49 0 200, msg 50 0 200, msg 84 0 200].flatten by decide +kernel]
    exact List.prefix_refl _) (by decide) (by decide)
  have hm := this.subset (mem_reqs (m := r).mpr (by simp))
  revert hr2
  simp only [List.mem_cons, List.not_mem_nil, or_false] at hm
  rcases hm with rfl | rfl | rfl | rfl <;> decide

end Gdnsd.Take
