/-
What gdnsdctl does, for every behaviour of its connections and of the daemon (C101), and the challenges it
sends (C102).
-/
import Verif.Ctl.ActLemmas
import Verif.Ctl.ConvLemmas
import Verif.Chal.Props
namespace Gdnsd.Ctl
open CssSpec CtlSpec
open Css (Entry Cfg Event msg msgKey msgV msgD)
open Conf (str)

/-! ### C101: success -/

/-- The connections of all rounds are new ones. -/
def New (ts : List Try) : Prop := ∀ t ∈ ts, (∀ c, t.conn = some c → Fresh c) ∧ ∀ c, t.conn2 = some c → Fresh c

/-- C101: exit status 0 means that the last round did the action: what it sent and what it received, to the
byte. Otherwise `-i` was given, for one of four actions, and there was no daemon that answered. -/
theorem C101_success {o : Opts} {action args ts out st ls} (hf : New ts) (h : main o action args ts = .ok (.exit 0 out st, ls)) :
    ∃ ls0 l, ls = ls0 ++ [l] ∧ (Did o action args l out st ∨ (o.ignoreDead = true ∧ Ignorable action ∧ Dead l ∧ out = [] ∧ st = none)) := by
  induction ts generalizing ls with
  | nil => cases h
  | cons t ts ih =>
    unfold main at h
    obtain ⟨⟨e, l⟩, hr, h⟩ := Css.bind_ok h
    dsimp only at h
    split at h
    · simp only [Outcome.ok.injEq, Prod.mk.injEq] at h
      obtain ⟨rfl, rfl⟩ := h
      exact ⟨[], l, rfl, round_zero (hf t (by simp)) hr⟩
    · obtain ⟨⟨e', ls'⟩, hm, h⟩ := Css.map_ok h
      simp only [Prod.mk.injEq] at h
      obtain ⟨rfl, rfl⟩ := h
      obtain ⟨ls0, l', rfl, h'⟩ := ih (fun t ht => hf t (by simp [ht])) hm
      exact ⟨l :: ls0, l', rfl, h'⟩

theorem actChal_total (o : Opts) (c : Chan) (args : List Bytes) : ∃ r, actChal o c args = .ok r := by
  unfold actChal
  split
  · exact ⟨_, rfl⟩
  next hn =>
  obtain ⟨k, hk⟩ : ∃ k, args.length = 2 * k := ⟨args.length / 2, by omega⟩
  have hk1 : 1 ≤ k ∧ k ≤ 100 := by omega
  rcases pairs_eq (N := 284 * k) (by have := Nat.mul_le_mul_left 284 hk1.2; omega) k hk (buf := []) (by rw [List.length_nil, Nat.zero_add]; exact Nat.le_refl _) with ⟨cs, h1, h2, h3, h4⟩ | ⟨_, h3⟩
  · rw [h3]
    simp only [Outcome.bind_ok, List.nil_append]
    have hflat : (cs.flatMap fun c => (item c).wire).length < 2 ^ 32 := by
      have := Nat.mul_le_mul_left 284 hk1.2
      omega
    have hmd := (@Css.header_msg 67 (args.length / 2) (cs.flatMap fun c => (item c).wire).length).2.2.2
    rw [Nat.mod_eq_of_lt hflat] at hmd
    have hpos := wire_pos (cs := cs) (by omega)
    unfold txnSend
    rw [decide_eq_true (by omega)]
    simp only [assert, if_true, Outcome.bind_ok]
    split
    · exact ⟨_, rfl⟩
    · exact ⟨_, rfl⟩
    · split
      · exact ⟨_, rfl⟩
      split <;> exact ⟨_, rfl⟩
  · rw [h3]; exact ⟨_, rfl⟩

/-- C101: nothing that a daemon sends, and no arguments, make gdnsdctl read or write outside its buffers. -/
theorem C101_total (o : Opts) (action : Bytes) (args : List Bytes) (ts : List Try) : ∃ r, main o action args ts = .ok r := by
  induction ts with
  | nil => exact ⟨_, rfl⟩
  | cons t ts ih =>
    have hr : ∃ r, round o action args t = .ok r := by
      unfold round
      split
      · exact ⟨_, rfl⟩
      · exact ⟨_, rfl⟩
      · exact ⟨_, rfl⟩
      · next i c _ _ =>
        have : ∃ r, doAction o i c t.conn2 action args = .ok r := by
          unfold doAction
          split
          · exact actChal_total o c args
          all_goals (repeat' split) <;> exact ⟨_, rfl⟩
        obtain ⟨r, hr⟩ := this
        rw [hr]
        exact ⟨_, rfl⟩
    obtain ⟨⟨e, l⟩, hr⟩ := hr
    unfold main
    rw [hr]
    simp only [Outcome.bind_ok]
    cases e with
    | some e => exact ⟨_, rfl⟩
    | none =>
      obtain ⟨r, hm⟩ := ih
      rw [hm]
      exact ⟨_, rfl⟩

/-! ### C101: what the daemon did -/

/-- A request that was acknowledged, in the history of the daemon. -/
theorem obeyed {cfg s l} {id : Nat} {o : Opts} {c : Chan} {i : Info} {req a d : Bytes} (h : Run cfg s l) (hl : Linked c id l) (ht : Talk o c i req (a ++ d)) (ha : Ack a)
    (hk : msgKey (req.take 8) ≠ 84) : Obeyed l id (req.take 8) fun x b d' => Acked x id (req.take 8) b ∧ (msgKey (req.take 8) = 83 ∨ msgKey (req.take 8) = 69 → d.length = msgD a → d' = d) ∧
      ∃ t, taken id b ++ t <+: req.drop 8 := by
  obtain ⟨_, h2⟩ := talk_run h hl ht
  obtain ⟨x, b, m, d', f, rest, rfl, hb, hw, hm8, hp, htk⟩ := h2 (by intro h0; have := congrArg List.length h0; rw [List.length_append, ha.1] at this; simp at this) hk
  have hf := hw.fds hk
  subst hf
  rw [List.append_assoc] at hp
  obtain ⟨rfl, hq⟩ := prefix_eq hp (by rw [ha.1, hm8])
  obtain ⟨x', b', hx, hb', hack⟩ := hw.ack ha.2
  have huniq : x = x' ∧ b = b' := by
    rcases split_cases hx with ⟨c1, hc1⟩ | ⟨v, rfl, hv⟩
    · exfalso
      subst hc1
      rw [List.append_assoc, List.append_cancel_left_eq] at hx
      simp only [List.cons_append, List.cons.injEq, true_and] at hx
      exact hb' (.req id (req.take 8)) (by rw [← hx]; simp) rfl
    · cases v with
      | nil => simp only [List.nil_append, List.cons.injEq, true_and] at hv; exact ⟨by simp, hv⟩
      | cons y v =>
        exfalso
        simp only [List.cons_append, List.cons.injEq] at hv
        exact hb (.req id (req.take 8)) (by rw [hv.2]; simp) rfl
  obtain ⟨rfl, rfl⟩ := huniq
  refine ⟨x, b, a, d', rest, rfl, ha.2, hb, hack, fun hk' hd => ?_, _, htk⟩
  have hs := hw.size hk' ha.2
  obtain ⟨t, ht⟩ := hq
  exact (List.append_inj_left ht (by rw [hd, hs])).symm

theorem chal_data {id : Nat} {b : List Entry} {n : Nat} {d : Bytes} (h : .chal id n d ∈ b) : ∃ x y, taken id b = x ++ d ++ y := by
  obtain ⟨b1, b2, rfl⟩ := List.append_of_mem h
  exact ⟨taken id b1, taken id b2, by rw [taken_append]; simp [taken]⟩

theorem means_wire {as : List Bytes} {cs : List (List Bytes × Bytes)} (h : Means as cs) : (cs.flatMap fun c => (item c).wire).length ≤ 284 * cs.length := by
  induction h with
  | nil => simp
  | @cons n p as ls cs h1 h2 h3 h4 ih =>
    rw [List.flatMap_cons, List.length_append, List.length_cons, Nat.mul_succ]
    obtain ⟨_, _, _, _, _, hle⟩ := h1
    have : (item (ls.map (·.map DnameSpec.lower), p)).wire.length ≤ 284 := by
      simp only [item, Chal.Item.wire, List.length_append, List.length_cons, List.length_nil, Dname.encode_length, Dname.wireLen_map_lower, h2]
      omega
    omega

/-- C101: success in the daemon. If the connection was number `id` of a daemon in whose history `l` is, then what gdnsdctl
tells is what that daemon did: `status` its process and version; `reload-zones` a reload that began after the
request and was without errors; `acme-dns-01-flush` and `stop` what they say; `replace` that another process,
the taker of the sockets, has stopped it; `stats` and `states` the data of its answer, all of it; `acme-dns-01`
the challenges of the arguments, all of them at once. -/
theorem C101_effect {cfg s l} {id : Nat} {o : Opts} {action args c cs out st} (h : Run cfg s l) (hl : Linked c id l) (hd : Did o action args (c :: cs) out st) :
    (Is action "status" → st = some ⟨cfg.self % 2 ^ 32, cfg.version % 2 ^ 24⟩) ∧
    (Is action "reload-zones" → Obeyed l id (plain 90) fun _ b _ => ∃ t x y, b = x ++ .load t :: y ∧ .loaded t false ∈ y) ∧
    (Is action "acme-dns-01-flush" → Obeyed l id (plain 99) fun _ b _ => .flush id ∈ b) ∧
    (Is action "stop" → Obeyed l id (plain 88) fun _ b _ => .stop id ∈ b) ∧
    (Is action "replace" → Obeyed l id (plain 82) fun a b _ => ∃ k x y, b = x ++ .stop k :: y ∧ k ≠ id ∧ Taker (a ++ .req id (plain 82) :: x) k) ∧
    (Is action "stats" → Obeyed l id (plain 83) fun _ _ d => d = out) ∧
    (Is action "states" → Obeyed l id (plain 69) fun _ _ d => d = out) ∧
    (Is action "acme-dns-01" → ∃ cs r, Means args cs ∧ header 67 cs.length (cs.flatMap fun c => (item c).wire).length r ∧
      Obeyed l id r fun _ b _ => .chal id cs.length (cs.flatMap fun c => (item c).wire) ∈ b) := by
  have no : ∀ {s t : String} {P : Prop}, Is action s → (str s == str t) = false → (Is action t → P) := by
    intro s t P h1 h2 h3
    exact absurd (h1.symm.trans h3) (by simpa using h2)
  have ob : ∀ {c i k a d} {P : List Entry → List Entry → Bytes → Prop}, Linked c id l → Talk o c i (plain k) (a ++ d) → Ack a → k ≠ 84 →
      (∀ x b d', Acked x id (plain k) b → (k = 83 ∨ k = 69 → d.length = msgD a → d' = d) → P x b d') → Obeyed l id (plain k) P := by
    intro c i k a d P hl ht ha hk hP
    obtain ⟨x, b, m, d', r, h1, h2, h3, h4, h5, _⟩ := obeyed h hl ht ha hk
    exact ⟨x, b, m, d', r, h1, h2, h3, hP x b d' h4 h5⟩
  cases hd with
  | status ha hb ht =>
    refine ⟨fun _ => by rw [(talk_run h hl ht).1], no ha ?_, no ha ?_, no ha ?_, no ha ?_, no ha ?_, no ha ?_, no ha ?_⟩ <;> decide +kernel
  | reload ha hb hk ht =>
    refine ⟨no ha ?_, fun _ => ob (d := []) hl (by rwa [List.append_nil]) hk (by decide) fun x b _ h _ => h.reload rfl, no ha ?_, no ha ?_, no ha ?_, no ha ?_, no ha ?_, no ha ?_⟩ <;> decide +kernel
  | flush ha hb hk ht =>
    refine ⟨no ha ?_, no ha ?_, fun _ => ob (d := []) hl (by rwa [List.append_nil]) hk (by decide) fun x b _ h _ => h.flush rfl, no ha ?_, no ha ?_, no ha ?_, no ha ?_, no ha ?_⟩ <;> decide +kernel
  | stop ha hb hk ht _ =>
    refine ⟨no ha ?_, no ha ?_, no ha ?_, fun _ => ob (d := []) hl (by rwa [List.append_nil]) hk (by decide) fun x b _ h _ => h.stop rfl, no ha ?_, no ha ?_, no ha ?_, no ha ?_⟩ <;> decide +kernel
  | replace ha hb hk ht _ _ =>
    refine ⟨no ha ?_, no ha ?_, no ha ?_, no ha ?_, fun _ => ob (d := []) hl (by rwa [List.append_nil]) hk (by decide) fun x b _ h _ => h.replace rfl, no ha ?_, no ha ?_, no ha ?_⟩ <;> decide +kernel
  | stats ha hb hk hs ht =>
    refine ⟨no ha ?_, no ha ?_, no ha ?_, no ha ?_, no ha ?_, fun _ => ob hl ht hk (by decide) fun x b _ _ h => h (Or.inl rfl) hs, no ha ?_, no ha ?_⟩ <;> decide +kernel
  | states ha hb hk hs ht =>
    refine ⟨no ha ?_, no ha ?_, no ha ?_, no ha ?_, no ha ?_, no ha ?_, fun _ => ob hl ht hk (by decide) fun x b _ _ h => h (Or.inr rfl) hs, no ha ?_⟩ <;> decide +kernel
  | @chal c i a req cs ha hm h1 h100 hk hreq ht =>
    refine ⟨no ha ?_, no ha ?_, no ha ?_, no ha ?_, no ha ?_, no ha ?_, no ha ?_, fun _ => ?_⟩
    all_goals first | decide +kernel | skip
    obtain ⟨r, hr, rfl⟩ := hreq
    have htake : (r ++ cs.flatMap fun c => (item c).wire).take 8 = r := List.take_left' hr.1
    have hdrop : (r ++ cs.flatMap fun c => (item c).wire).drop 8 = cs.flatMap fun c => (item c).wire := List.drop_left' hr.1
    have hob := obeyed (d := []) h hl (by rwa [List.append_nil]) hk (by rw [htake, hr.2.1]; decide)
    rw [htake, hdrop] at hob
    obtain ⟨x, b, m, d', rest, h2, h3, h4, h5, _, t, h7⟩ := hob
    refine ⟨cs, r, hm, hr, x, b, m, d', rest, h2, h3, h4, ?_⟩
    obtain ⟨d, hd, hlen⟩ := h5.chal hr.2.1
    obtain ⟨y, z, hyz⟩ := chal_data hd
    have hle := means_wire hm
    have hlt : (cs.flatMap fun c => (item c).wire).length < 2 ^ 32 := by
      have := Nat.mul_le_mul_left 284 h100
      omega
    rw [hr.2.2.2, Nat.mod_eq_of_lt hlt] at hlen
    rw [hr.2.2.1, Nat.mod_eq_of_lt (by omega)] at hd
    obtain ⟨u, hu⟩ := h7
    rw [hyz] at hu
    have hl0 := congrArg List.length hu
    simp only [List.length_append] at hl0
    have hy : y = [] := List.eq_nil_of_length_eq_zero (by omega)
    subst hy
    rw [List.nil_append, List.append_assoc, List.append_assoc] at hu
    rwa [List.append_inj_left (hu.trans (List.append_nil _).symm) hlen] at hd

/-! ### C101: connections that work -/

theorem txn_coop {c : Chan} {req m x t r} (h8 : req.length = 8) (ht : c.tx = x :: t) (hx : Takes x) (hr : c.rx = .got m :: r) (ha : m.length = 8) :
    txn c req = (if msgKey m = 65 then .ok m else if msgKey m = 76 then .soft else .hard, { c with tx := t, rx := r, out := c.out ++ req, inp := c.inp ++ m }) := by
  cases x with
  | fail => cases hx
  | pipe => cases hx
  | part k =>
    have hx : 8 ≤ k := hx
    unfold txn send
    rw [ht]
    dsimp only
    have hmin : min k req.length = 8 := by omega
    rw [hmin, if_neg (by omega), List.take_of_length_le (by omega)]
    unfold verdict recv
    rw [hr]
    dsimp only
    rw [List.take_of_length_le (by omega), if_neg (by omega)]
    have he : m.isEmpty = false := by cases m with | nil => cases ha | cons _ _ => rfl
    rw [he, Bool.or_false]
    split
    · rfl
    split <;> rfl

theorem pull_coop : ∀ (bs : List Bytes) {f : Nat} {c : Chan} {r}, bs.length ≤ f → (∀ b ∈ bs, b ≠ []) → c.rx = bs.map .got ++ r → ∃ c', pull f c bs.flatten.length = (some bs.flatten, c')
  | [], f, c, r, _, _, _ => by cases f <;> exact ⟨c, rfl⟩
  | b :: bs, 0, c, r, hf, _, _ => by simp at hf
  | b :: bs, f + 1, c, r, hf, hne, hr => by
    have hb := hne b (by simp)
    obtain ⟨x, y, rfl⟩ : ∃ x y, b = x :: y := by cases b with | nil => exact absurd rfl hb | cons x y => exact ⟨x, y, rfl⟩
    unfold pull
    rw [if_neg (by simp)]
    unfold recv
    rw [hr]
    simp only [List.map_cons, List.cons_append]
    rw [List.take_of_length_le (by simp)]
    obtain ⟨c', hc⟩ := pull_coop bs (f := f) (c := { c with rx := bs.map .got ++ r, inp := c.inp ++ (x :: y), eof := c.eof || (x :: y : Bytes).isEmpty }) (r := r) (by simpa using hf) (fun b hb => hne b (by simp [hb])) rfl
    have hl : ((x :: y) :: bs).flatten.length - (x :: y : Bytes).length = bs.flatten.length := by simp
    dsimp only
    rw [hl, hc]
    exact ⟨c', by simp⟩

theorem push_coop : ∀ (ks : List Nat) {f : Nat} {c : Chan} {b : Bytes} {t}, ks.length ≤ f → (∀ k ∈ ks, 0 < k) → c.tx = ks.map .part ++ t → b.length ≤ ks.sum →
    ∃ k c', push f c b = (.n k, c') ∧ c'.rx = c.rx
  | [], f, c, b, t, _, _, _, hs => by
    have : b = [] := List.eq_nil_of_length_eq_zero (by simpa using hs)
    subst this
    cases f <;> exact ⟨0, c, rfl, rfl⟩
  | k :: ks, 0, c, b, t, hf, _, _, _ => by simp at hf
  | k :: ks, f + 1, c, b, t, hf, hp, ht, hs => by
    unfold push
    by_cases hb : b = []
    · rw [if_pos hb]; exact ⟨0, c, rfl, rfl⟩
    rw [if_neg hb]
    unfold send
    rw [ht]
    simp only [List.map_cons, List.cons_append]
    have hs' : (b.drop (min k b.length)).length ≤ ks.sum := by
      rw [List.sum_cons] at hs
      rw [List.length_drop]
      omega
    obtain ⟨n, c', h1, h2⟩ := push_coop ks (f := f) (c := { c with tx := ks.map .part ++ t, out := c.out ++ b.take k }) (t := t) (by simpa using hf) (fun k hk => hp k (by simp [hk])) rfl hs'
    exact ⟨n, c', h1, h2⟩

theorem txnSend_coop {c : Chan} {req data a : Bytes} {y ks tx rx} (h8 : req.length = 8) (hd : data.length = msgD req) (h0 : 1 ≤ data.length) (ht : c.tx = y :: (List.map Tx.part ks ++ tx)) (hy : Takes y)
    (hp : ∀ k ∈ ks, 0 < k) (hs : data.length ≤ ks.sum) (hr : c.rx = .got a :: rx) (hk : Ack a) : ∃ c', txnSend c req data = .ok (.ok a, c') := by
  cases y with
  | fail => cases hy
  | pipe => cases hy
  | part k =>
    have hy' : 8 ≤ k := hy
    unfold txnSend
    rw [decide_eq_true (by omega)]
    simp only [assert, if_true, Outcome.bind_ok, send]
    rw [ht]
    dsimp only
    have hmin : min k req.length = 8 := by omega
    rw [hmin, if_neg (by omega), ← hd, List.take_of_length_le (Nat.le_refl _)]
    obtain ⟨n, c', hp1, hp2⟩ := push_coop ks (f := (ks.map Tx.part ++ tx).length + 1) (c := { c with tx := ks.map .part ++ tx, out := c.out ++ req.take k }) (b := data) (by simp; omega) hp rfl hs
    rw [hp1]
    dsimp only
    unfold verdict recv
    rw [hp2]
    dsimp only
    rw [hr]
    dsimp only
    have h8 := hk.1
    rw [List.take_of_length_le (by omega), if_neg (by omega), if_pos hk.2]
    exact ⟨_, rfl⟩

theorem new_coop {o : Opts} {c : Chan} {m x t r} (ht : c.tx = x :: t) (hx : Takes x) (hr : c.rx = .got m :: r) (ha : Ack m) :
    new o (some c) = (.ok (⟨msgD m, msgV m⟩, { c with tx := t, rx := r, out := c.out ++ hello o, inp := c.inp ++ m }), []) := by
  unfold new
  dsimp only
  rw [txn_coop rfl ht hx hr ha.1, if_pos ha.2]
  rfl

theorem dispatch {o : Opts} {i c c2 action} : (Is action "stop" → doAction o i c c2 action [] = .ok (actStop o c)) ∧ (Is action "reload-zones" → doAction o i c c2 action [] = .ok (actPlain o 90 c)) ∧
    (Is action "replace" → doAction o i c c2 action [] = .ok (actReplace o c c2)) ∧ (Is action "status" → doAction o i c c2 action [] = .ok (.done [] (some i), [c])) ∧
    (Is action "stats" → doAction o i c c2 action [] = .ok (actData o 83 c)) ∧ (Is action "states" → doAction o i c c2 action [] = .ok (actData o 69 c)) ∧
    (Is action "acme-dns-01-flush" → doAction o i c c2 action [] = .ok (actPlain o 99 c)) ∧ (Is action "acme-dns-01" → ∀ args, doAction o i c c2 action args = actChal o c args) := by
  have yes : ∀ {s : String}, (str s).map Mon.lower = str s → Is action s → Svc.caseEq action (str s) = true := fun h1 h2 => (is_iff h1).mpr h2
  have no : ∀ {s t : String}, (str t).map Mon.lower = str t → Is action s → (str s == str t) = false → Svc.caseEq action (str t) = false := by
    intro s t h1 h2 h3
    rw [Bool.eq_false_iff]
    intro h
    exact absurd (h2.symm.trans ((is_iff h1).mp h)) (by simpa using h3)
  refine ⟨fun h => ?_, fun h => ?_, fun h => ?_, fun h => ?_, fun h => ?_, fun h => ?_, fun h => ?_, fun h args => ?_⟩
  · unfold doAction
    rw [no (t := "acme-dns-01") (by decide +kernel) h (by decide +kernel), yes (s := "stop") (by decide +kernel) h]
    rfl
  · unfold doAction
    rw [no (t := "acme-dns-01") (by decide +kernel) h (by decide +kernel), no (t := "stop") (by decide +kernel) h (by decide +kernel), yes (s := "reload-zones") (by decide +kernel) h]
    rfl
  · unfold doAction
    rw [no (t := "acme-dns-01") (by decide +kernel) h (by decide +kernel), no (t := "stop") (by decide +kernel) h (by decide +kernel), no (t := "reload-zones") (by decide +kernel) h (by decide +kernel),
      yes (s := "replace") (by decide +kernel) h]
    rfl
  · unfold doAction
    rw [no (t := "acme-dns-01") (by decide +kernel) h (by decide +kernel), no (t := "stop") (by decide +kernel) h (by decide +kernel), no (t := "reload-zones") (by decide +kernel) h (by decide +kernel),
      no (t := "replace") (by decide +kernel) h (by decide +kernel), yes (s := "status") (by decide +kernel) h]
    rfl
  · unfold doAction
    rw [no (t := "acme-dns-01") (by decide +kernel) h (by decide +kernel), no (t := "stop") (by decide +kernel) h (by decide +kernel), no (t := "reload-zones") (by decide +kernel) h (by decide +kernel),
      no (t := "replace") (by decide +kernel) h (by decide +kernel), no (t := "status") (by decide +kernel) h (by decide +kernel), yes (s := "stats") (by decide +kernel) h]
    rfl
  · unfold doAction
    rw [no (t := "acme-dns-01") (by decide +kernel) h (by decide +kernel), no (t := "stop") (by decide +kernel) h (by decide +kernel), no (t := "reload-zones") (by decide +kernel) h (by decide +kernel),
      no (t := "replace") (by decide +kernel) h (by decide +kernel), no (t := "status") (by decide +kernel) h (by decide +kernel), no (t := "stats") (by decide +kernel) h (by decide +kernel),
      yes (s := "states") (by decide +kernel) h]
    rfl
  · unfold doAction
    rw [no (t := "acme-dns-01") (by decide +kernel) h (by decide +kernel), no (t := "stop") (by decide +kernel) h (by decide +kernel), no (t := "reload-zones") (by decide +kernel) h (by decide +kernel),
      no (t := "replace") (by decide +kernel) h (by decide +kernel), no (t := "status") (by decide +kernel) h (by decide +kernel), no (t := "stats") (by decide +kernel) h (by decide +kernel),
      no (t := "states") (by decide +kernel) h (by decide +kernel), yes (s := "acme-dns-01-flush") (by decide +kernel) h]
    rfl
  · unfold doAction
    rw [yes (s := "acme-dns-01") (by decide +kernel) h]
    rfl

/-- One round, to the end. -/
theorem round_works {o : Opts} {action args t out st} (h : Works action args t out st) : ∃ l, round o action args t = .ok (some (.exit 0 out st), l) := by
  cases h with
  | @status c x tx m rx ha hb hc ht hx hr hm =>
    subst hb
    unfold round
    rw [hc, new_coop ht hx hr hm]
    dsimp only
    rw [dispatch.2.2.2.1 ha]
    exact ⟨_, rfl⟩
  | @plain c x y tx m a rx k ha hb hc ht hx hy hr hm hk =>
    subst hb
    unfold round
    rw [hc, new_coop ht hx hr hm]
    dsimp only
    have hd : ∀ i c c2, doAction o i c c2 action [] = .ok (actPlain o k c) := by
      intro i c c2
      rcases ha with ⟨h, rfl⟩ | ⟨h, rfl⟩
      · exact dispatch.2.1 h
      · exact dispatch.2.2.2.2.2.2.1 h
    rw [hd]
    unfold actPlain
    rw [txn_coop (x := y) (t := tx) (m := a) (r := rx) rfl rfl hy rfl hk.1, if_pos hk.2]
    exact ⟨_, rfl⟩
  | @stop c x y tx m a rx ha hb hc ht hx hy hr hm hk =>
    subst hb
    unfold round
    rw [hc, new_coop ht hx hr hm]
    dsimp only
    rw [dispatch.1 ha]
    unfold actStop
    rw [txn_coop (x := y) (t := tx) (m := a) (r := .got [] :: rx) rfl rfl hy rfl hk.1, if_pos hk.2]
    exact ⟨_, rfl⟩
  | @replace c x y tx m a rx c2 z tx2 m2 rx2 ha hb hc ht hx hy hr hm hk hc2 ht2 hz hr2 hm2 =>
    subst hb
    unfold round
    rw [hc, new_coop ht hx hr hm]
    dsimp only
    rw [dispatch.2.2.1 ha, hc2]
    unfold actReplace
    rw [txn_coop (x := y) (t := tx) (m := a) (r := .got [] :: rx) rfl rfl hy rfl hk.1, if_pos hk.2]
    dsimp only [waitStop, recv, List.take]
    rw [new_coop ht2 hz hr2 hm2]
    exact ⟨_, rfl⟩
  | @data c x y tx m a bs rx k ha hb hc ht hx hy hr hm hk hne hlen =>
    subst hb
    unfold round
    rw [hc, new_coop ht hx hr hm]
    dsimp only
    have hd : ∀ i c c2, doAction o i c c2 action [] = .ok (actData o k c) := by
      intro i c c2
      rcases ha with ⟨h, rfl⟩ | ⟨h, rfl⟩
      · exact dispatch.2.2.2.2.1 h
      · exact dispatch.2.2.2.2.2.1 h
    rw [hd]
    unfold actData txnGet
    rw [txn_coop (x := y) (t := tx) (m := a) (r := bs.map .got ++ rx) rfl rfl hy rfl hk.1, if_pos hk.2]
    dsimp only
    obtain ⟨c', hp⟩ := pull_coop bs (f := (bs.map Rx.got ++ rx).length + 1) (c := { c with tx := tx, rx := bs.map .got ++ rx, out := c.out ++ hello o ++ msg k 0 0, inp := c.inp ++ m ++ a }) (by simp; omega) hne rfl
    rw [← hlen, hp]
    exact ⟨_, rfl⟩
  | @chal c x y tx ks m a rx cs ha hb h1 h100 hc ht hx hy hp hs hr hm hk =>
    unfold round
    rw [hc, new_coop ht hx hr hm]
    dsimp only
    rw [dispatch.2.2.2.2.2.2.2 ha]
    have hlen := means_len hb
    have hcount : ¬ (args.length = 0 ∨ args.length % 2 = 1 ∨ 200 < args.length) := by omega
    unfold actChal
    rw [if_neg hcount]
    have h284 := Nat.mul_le_mul_left 284 h100
    rcases pairs_eq (N := 284 * cs.length) (by omega) cs.length hlen (buf := []) (by rw [List.length_nil, Nat.zero_add]; exact Nat.le_refl _) with ⟨cs', g1, g2, g3, g4⟩ | ⟨g, _⟩
    · cases means_fun hb g1
      rw [g3]
      simp only [Outcome.bind_ok, List.nil_append]
      have hmd := (@Css.header_msg 67 (args.length / 2) (cs.flatMap fun c => (item c).wire).length).2.2.2
      rw [Nat.mod_eq_of_lt (by omega)] at hmd
      have hpos := wire_pos h1
      obtain ⟨c', hc'⟩ := txnSend_coop (c := { c with tx := y :: (ks.map .part ++ tx), rx := .got a :: rx, out := c.out ++ hello o, inp := c.inp ++ m }) (req := msg 67 (args.length / 2) (cs.flatMap fun c => (item c).wire).length)
        rfl hmd.symm hpos rfl hy hp hs rfl hk
      rw [hc']
      exact ⟨_, rfl⟩
    · exact absurd ⟨cs, hb⟩ g

theorem round_later {o : Opts} {action t} (ho : o.oneshot = false) (h : Later action t) : ∃ l, round o action [] t = .ok (none, l) := by
  obtain ⟨c, x, y, tx, m, a, rx, ha, hal, hc, ht, hx, hy, hr, hm, h8, hk⟩ := h
  have hk' : msgKey a ≠ 65 := by rw [hk]; decide
  unfold round
  rw [hc, new_coop ht hx hr hm]
  dsimp only
  have hset : ∀ {α} {f : α → Act}, settle o .soft f = .retry := by intro α f; simp [settle, ho]
  have h2 : ∀ {req : Bytes}, req.length = 8 → txn { c with tx := y :: tx, rx := .got a :: rx, out := c.out ++ hello o, inp := c.inp ++ m } req =
      (.soft, { c with tx := tx, rx := rx, out := c.out ++ hello o ++ req, inp := c.inp ++ m ++ a }) := by
    intro req hreq
    rw [txn_coop (x := y) (t := tx) (m := a) (r := rx) hreq rfl hy rfl h8, if_neg hk', if_pos hk]
  rcases ha with h | h | h | h | h | h
  · rw [dispatch.1 h]; unfold actStop; rw [h2 rfl]; dsimp only; rw [hset]; exact ⟨_, by simp [ho, hal, Outcome.map, Outcome.bind]; rfl⟩
  · rw [dispatch.2.1 h]; unfold actPlain; rw [h2 rfl]; dsimp only; rw [hset]; exact ⟨_, by simp [ho, hal, Outcome.map, Outcome.bind]; rfl⟩
  · rw [dispatch.2.2.1 h]; unfold actReplace; rw [h2 rfl]; dsimp only; rw [hset]; exact ⟨_, by simp [ho, hal, Outcome.map, Outcome.bind]; rfl⟩
  · rw [dispatch.2.2.2.2.1 h]; unfold actData txnGet; rw [h2 rfl]; dsimp only; rw [hset]; exact ⟨_, by simp [ho, hal, Outcome.map, Outcome.bind]; rfl⟩
  · rw [dispatch.2.2.2.2.2.1 h]; unfold actData txnGet; rw [h2 rfl]; dsimp only; rw [hset]; exact ⟨_, by simp [ho, hal, Outcome.map, Outcome.bind]; rfl⟩
  · rw [dispatch.2.2.2.2.2.2.1 h]; unfold actPlain; rw [h2 rfl]; dsimp only; rw [hset]; exact ⟨_, by simp [ho, hal, Outcome.map, Outcome.bind]; rfl⟩

/-- C101: if the connection works and the daemon acknowledges, the exit status is 0; data may come, and
challenges go, in any pieces. A daemon that says "later" is asked again, any number of times. -/
theorem C101_works {o : Opts} {action args t out st} (h : Works action args t out st) : ∀ {ts0 : List Try}, (ts0 ≠ [] → o.oneshot = false ∧ args = []) → (∀ t ∈ ts0, Later action t) →
    ∀ ts, ∃ ls, main o action args (ts0 ++ t :: ts) = .ok (.exit 0 out st, ls)
  | [], _, _, ts => by
    obtain ⟨l, hl⟩ := round_works (o := o) h
    rw [List.nil_append]
    unfold main
    rw [hl]
    exact ⟨_, rfl⟩
  | t0 :: ts0, ho, hl, ts => by
    obtain ⟨ho1, rfl⟩ := ho (by simp)
    obtain ⟨l, hr⟩ := round_later ho1 (hl t0 (by simp))
    obtain ⟨ls, hm⟩ := C101_works h (ts0 := ts0) (fun _ => ⟨ho1, rfl⟩) (fun t ht => hl t (by simp [ht])) ts
    rw [List.cons_append]
    unfold main
    rw [hr]
    simp only [Outcome.bind_ok]
    rw [hm]
    exact ⟨_, rfl⟩

/-! ### C102: challenges -/

theorem send_out {c : Chan} {b r c'} (h : send c b = (r, c')) : ∃ p, p <+: b ∧ c'.out = c.out ++ p := by
  unfold send at h
  split at h <;> (simp only [Prod.mk.injEq] at h; obtain ⟨_, rfl⟩ := h)
  · exact ⟨[], List.nil_prefix, by simp⟩
  · exact ⟨[], List.nil_prefix, by simp⟩
  · exact ⟨[], List.nil_prefix, by simp⟩
  · exact ⟨_, List.take_prefix _ _, rfl⟩

theorem verdict_out {c : Chan} {r c'} (h : verdict c = (r, c')) : c'.out = c.out := by
  unfold verdict at h
  have : ∀ {x c1}, recv c 8 = (x, c1) → c1.out = c.out := by
    intro x c1 h
    unfold recv at h
    split at h <;> (simp only [Prod.mk.injEq] at h; obtain ⟨_, rfl⟩ := h; rfl)
  split at h
  · next h1 => simp only [Prod.mk.injEq] at h; obtain ⟨_, rfl⟩ := h; exact this h1
  · next h1 =>
    split at h
    · simp only [Prod.mk.injEq] at h; obtain ⟨_, rfl⟩ := h; exact this h1
    split at h
    · simp only [Prod.mk.injEq] at h; obtain ⟨_, rfl⟩ := h; exact this h1
    split at h <;> (simp only [Prod.mk.injEq] at h; obtain ⟨_, rfl⟩ := h; exact this h1)

theorem txn_out {c : Chan} {req r c'} (h : txn c req = (r, c')) : ∃ p, p <+: req ∧ c'.out = c.out ++ p := by
  unfold txn at h
  split at h
  · next h1 => simp only [Prod.mk.injEq] at h; obtain ⟨_, rfl⟩ := h; exact send_out h1
  · next h1 => simp only [Prod.mk.injEq] at h; obtain ⟨_, rfl⟩ := h; exact send_out h1
  · next h1 =>
    split at h
    · simp only [Prod.mk.injEq] at h; obtain ⟨_, rfl⟩ := h; exact send_out h1
    · rw [verdict_out h]; exact send_out h1

theorem new_out {o : Opts} {oc r l} (hf : ∀ c, oc = some c → Fresh c) (h : new o oc = (r, l)) : (∀ c ∈ l, c.out <+: hello o) ∧ ∀ i c, r = .ok (i, c) → c.out <+: hello o := by
  unfold new at h
  split at h
  · simp only [Prod.mk.injEq] at h; obtain ⟨rfl, rfl⟩ := h; exact ⟨by simp, by intro _ _ h; cases h⟩
  · next c =>
    have h0 := (hf c rfl).1
    have ho : ∀ {x c'}, txn c (msg 73 o.version 0) = (x, c') → c'.out <+: hello o := by
      intro x c' h
      obtain ⟨p, hp, he⟩ := txn_out h
      rw [he, h0, List.nil_append]
      exact hp
    split at h
    · next h1 => simp only [Prod.mk.injEq] at h; obtain ⟨rfl, rfl⟩ := h; exact ⟨by simp, by intro _ _ h; simp only [Rv.ok.injEq, Prod.mk.injEq] at h; obtain ⟨_, rfl⟩ := h; exact ho h1⟩
    · next h1 => simp only [Prod.mk.injEq] at h; obtain ⟨rfl, rfl⟩ := h; exact ⟨by simpa using ho h1, by intro _ _ h; cases h⟩
    · next h1 => simp only [Prod.mk.injEq] at h; obtain ⟨rfl, rfl⟩ := h; exact ⟨by simpa using ho h1, by intro _ _ h; cases h⟩

/-- C102: if one of the arguments is not legal, or their number is not, then nothing but the greeting is sent,
and the exit status is not 0. -/
theorem C102_illegal {o : Opts} {action args ts e ls} (hf : New ts) (ha : Is action "acme-dns-01") (hno : ¬ ∃ cs, Means args cs ∧ 1 ≤ cs.length ∧ cs.length ≤ 100)
    (h : main o action args ts = .ok (e, ls)) : (∀ l ∈ ls, ∀ c ∈ l, c.out <+: hello o) ∧ ∀ out st, e ≠ .exit 0 out st := by
  refine ⟨?_, ?_⟩
  · have hchal : ∀ {c}, ∃ n, actChal o c args = .ok (.exit n, [c]) := by
      intro c
      unfold actChal
      split
      · exact ⟨_, rfl⟩
      next hn =>
      obtain ⟨k, hk⟩ : ∃ k, args.length = 2 * k := ⟨args.length / 2, by omega⟩
      have hk1 : 1 ≤ k ∧ k ≤ 100 := by omega
      rcases pairs_eq (N := 284 * k) (by have := Nat.mul_le_mul_left 284 hk1.2; omega) k hk (buf := []) (by rw [List.length_nil, Nat.zero_add]; exact Nat.le_refl _) with ⟨cs, h1, h2, _⟩ | ⟨_, h3⟩
      · exact absurd ⟨cs, h1, by omega, by omega⟩ hno
      · rw [h3]; exact ⟨_, rfl⟩
    induction ts generalizing ls e with
    | nil => simp only [main, Outcome.ok.injEq, Prod.mk.injEq] at h; obtain ⟨_, rfl⟩ := h; simp
    | cons t ts ih =>
      unfold main at h
      obtain ⟨⟨e', l⟩, hr, h⟩ := Css.bind_ok h
      have hl : (∀ c ∈ l, c.out <+: hello o) := by
        unfold round at hr
        split at hr
        · next hn => simp only [Outcome.ok.injEq, Prod.mk.injEq] at hr; obtain ⟨_, rfl⟩ := hr; exact (new_out (hf t (by simp)).1 hn).1
        · next hn => simp only [Outcome.ok.injEq, Prod.mk.injEq] at hr; obtain ⟨_, rfl⟩ := hr; exact (new_out (hf t (by simp)).1 hn).1
        · next hn => simp only [Outcome.ok.injEq, Prod.mk.injEq] at hr; obtain ⟨_, rfl⟩ := hr; exact (new_out (hf t (by simp)).1 hn).1
        · next i c _ hn =>
          rw [dispatch.2.2.2.2.2.2.2 ha] at hr
          obtain ⟨n, hn'⟩ := hchal (c := c)
          rw [hn'] at hr
          simp only [Outcome.map, Outcome.bind, Outcome.ok.injEq, Prod.mk.injEq] at hr
          obtain ⟨_, rfl⟩ := hr
          simpa using (new_out (hf t (by simp)).1 hn).2 i c rfl
      dsimp only at h
      split at h
      · simp only [Outcome.ok.injEq, Prod.mk.injEq] at h
        obtain ⟨_, rfl⟩ := h
        simpa using hl
      · obtain ⟨⟨e2, ls2⟩, hm, h⟩ := Css.map_ok h
        simp only [Prod.mk.injEq] at h
        obtain ⟨_, rfl⟩ := h
        have := ih (fun t ht => hf t (by simp [ht])) hm
        intro l' hl'
        rcases List.mem_cons.mp hl' with rfl | hl'
        · exact hl
        · exact this l' hl'
  · rintro out st rfl
    obtain ⟨_, l, _, hd | ⟨_, hi, _⟩⟩ := C101_success hf h
    · have no : ∀ {t : String}, Is action t → (str "acme-dns-01" == str t) = false → False := by
        intro t h3 h2
        exact absurd (ha.symm.trans h3) (by simpa using h2)
      cases hd with
      | status h0 => exact no h0 (by decide +kernel)
      | reload h0 => exact no h0 (by decide +kernel)
      | flush h0 => exact no h0 (by decide +kernel)
      | stop h0 => exact no h0 (by decide +kernel)
      | replace h0 => exact no h0 (by decide +kernel)
      | stats h0 => exact no h0 (by decide +kernel)
      | states h0 => exact no h0 (by decide +kernel)
      | chal _ hm h1 h100 => exact hno ⟨_, hm, h1, h100⟩
    · rcases hi with h | h | h | h <;> exact absurd (ha.symm.trans h) (by decide +kernel)

theorem item_ok {as : List Bytes} {cs : List (List Bytes × Bytes)} (h : Means as cs) : ∀ i ∈ cs.map item, i.Ok := by
  induction h with
  | nil => simp
  | @cons n p as ls cs h1 h2 h3 h4 ih =>
    intro i hi
    rcases List.mem_cons.mp (by simpa only [List.map_cons] using hi) with rfl | hi
    · obtain ⟨_, _, _, _, hw, _⟩ := h1
      have hw' := Dname.WF_map_lower hw
      have hst := Dname.status_encode' (ls.map (·.map DnameSpec.lower)) true hw'
      refine ⟨⟨.valid, ⟨hst, UInt8.ofNat (DnameSpec.wireLen (ls.map (·.map DnameSpec.lower))), (DnameSpec.encode (ls.map (·.map DnameSpec.lower)) true).tail, rfl, ?_⟩, by decide⟩, h2⟩
      have hlt := hw'.2
      rw [List.length_tail, Dname.encode_length, UInt8.toNat_ofNat']
      omega
    · exact ih i hi

theorem item_full (c : List Bytes × Bytes) : (item c).full = DnameSpec.encode c.1 true := by
  simp only [Chal.Item.full, item, DnameSpec.encode, if_true]
  rw [List.dropLast_concat]

theorem wires_inj : ∀ {is js : List Chal.Item}, (∀ i ∈ is, i.Ok) → (∀ i ∈ js, i.Ok) → is.length = js.length → is.flatMap Chal.Item.wire = js.flatMap Chal.Item.wire → is = js
  | [], [], _, _, _, _ => rfl
  | [], _ :: _, _, _, h, _ => by simp at h
  | _ :: _, [], _, _, h, _ => by simp at h
  | i :: is, j :: js, hi, hj, hl, h => by
    obtain ⟨⟨_, ⟨_, l, r, h1, h2⟩, _⟩, h3⟩ := hi i (by simp)
    obtain ⟨⟨_, ⟨_, l', r', g1, g2⟩, _⟩, g3⟩ := hj j (by simp)
    obtain ⟨n, p, z⟩ := i
    obtain ⟨n', p', z'⟩ := j
    simp only [List.flatMap_cons, Chal.Item.wire] at h h1 g1 h3 g3
    subst h1 g1
    simp only [List.cons_append, List.cons.injEq, List.append_assoc] at h
    obtain ⟨e1, h5⟩ := h
    subst e1
    obtain ⟨e2, h6⟩ := List.append_inj h5 (by omega)
    obtain ⟨e3, h7⟩ := List.append_inj h6 (by omega)
    simp only [List.nil_append, List.cons.injEq] at h7
    rw [wires_inj (fun i hi' => hi i (by simp [hi'])) (fun i hi' => hj i (by simp [hi'])) (by simpa using hl) h7.2, e2, e3, h7.1]

/-- C102: the daemon accepts the challenges of legal arguments, as long as there are at most 201. -/
theorem C102_accepted {cfg : Chal.Cfg} {n now : Nat} {s : Chal.State} (hr : Chal.Reach cfg (Chal.init n now) s) (hidle : s.writer = .idle) {args : List Bytes} {cs : List (List Bytes × Bytes)}
    (hm : Means args cs) (h1 : 1 ≤ cs.length) (h2 : cs.length ≤ 100) (rem : Nat) (h4 : (s.log.flatMap fun e => e.2.chals).length + cs.length ≤ 201) :
    ∃ s', Chal.step cfg s (.create rem cs.length (cs.flatMap fun c => (item c).wire).length (cs.flatMap fun c => (item c).wire)) = .ok (some s') := by
  have hfm : (cs.flatMap fun c => (item c).wire) = (cs.map item).flatMap Chal.Item.wire := by rw [List.flatMap_map]
  have hle := means_wire hm
  have := Nat.mul_le_mul_left 284 h2
  have h := Chal.C37_accepts (cfg := cfg) hr hidle (is := cs.map item) (item_ok hm) (by simpa using h1) (by simpa using h2) (by rw [← hfm]; omega) rem (by simpa using h4)
  rw [← hfm, List.length_map] at h
  exact h

/-- C102: and what is installed then are these challenges: the names of the arguments, fully qualified and in
lower case, each with a TXT record of its text. -/
theorem C102_installed {cfg : Chal.Cfg} {n now : Nat} {s s' : Chal.State} (hr : Chal.Reach cfg (Chal.init n now) s) {args : List Bytes} {cs : List (List Bytes × Bytes)} (hm : Means args cs) (rem : Nat)
    (hw : (Chal.Action.create rem cs.length (cs.flatMap fun c => (item c).wire).length (cs.flatMap fun c => (item c).wire)).Wf s)
    (hs : Chal.step cfg s (.create rem cs.length (cs.flatMap fun c => (item c).wire).length (cs.flatMap fun c => (item c).wire)) = .ok (some s')) :
    s'.log = s.log ++ [(s.now, ⟨cs.map fun c => ⟨Chal.dnameHash cfg (DnameSpec.encode c.1 true), DnameSpec.encode c.1 true, Chal.mkRR cfg c.2⟩, s.now + 1000 * Chal.lifetime cfg rem⟩)] := by
  obtain ⟨is, h1, h2, h3, _, _, _, h4⟩ := Chal.C37_accepted hr hw hs
  have hfm : (cs.flatMap fun c => (item c).wire) = (cs.map item).flatMap Chal.Item.wire := by rw [List.flatMap_map]
  rw [hfm] at h2
  have := wires_inj (item_ok hm) h1 (by simpa using h3.symm) h2
  subst this
  rw [h4, List.map_map]
  congr 5
  funext c
  simp only [Function.comp, item_full]
  rfl

/-! ### A connection to a daemon -/

def optsEx : Opts := ⟨0x030000, false, false⟩

/-- A connection of which all calls succeed. -/
def chanEx (rx : List Rx) : Chan := ⟨[.part 8, .part 8, .part 30, .part 1000], rx, [], [], false⟩

def tryEx (rx : List Rx) : Try := ⟨some (chanEx rx), none, false⟩

/-- A daemon and a client that wants its zones to be loaded again. -/
def runEx : List Event :=
  [.accept none, .read 0 (.got (hello optsEx)) Css.envEx, .write 0 (.part 8), .read 0 (Css.ask 90 0) Css.envEx, .ended 1, .async, .write 0 (.part 8)]

def logEx : List Entry :=
  [.accept 0 none, .req 0 (hello optsEx), .resp 0 (msg 65 0x030000 100) [] false, .out 0 (msg 65 0x030000 100) [], .req 0 (plain 90), .load 1, .loaded 1 false, .resp 0 (plain 65) [] false, .out 0 (plain 65) []]

theorem runEx_log : ∃ s, Run Css.cfgEx s logEx ∧ s.running = true := Css.run_of (es := runEx) (by decide) (by decide +kernel)

/-- The connection of that client, at the end. -/
def endEx : Chan := ⟨[.part 30, .part 1000], [], hello optsEx ++ plain 90, msg 65 0x030000 100 ++ plain 65, false⟩

example : main optsEx (str "Reload-Zones") [] [tryEx [.got (msg 65 0x030000 100), .got (plain 65)]] = .ok (.exit 0 [] none, [[endEx]]) := by decide +kernel

example : New [tryEx [.got (msg 65 0x030000 100), .got (plain 65)]] := by
  intro t ht
  rw [List.mem_singleton] at ht
  subst ht
  exact ⟨fun c hc => by cases hc; exact ⟨rfl, rfl, rfl⟩, fun c hc => by cases hc⟩

theorem isEx : Is (str "Reload-Zones") "reload-zones" := by unfold Is; decide +kernel

theorem didEx : Did optsEx (str "Reload-Zones") [] [endEx] [] none :=
  .reload isEx rfl ⟨by decide, by decide⟩ ⟨msg 65 0x030000 100, ⟨by decide, by decide⟩, rfl, rfl, rfl⟩

theorem linkedEx : Linked endEx 0 logEx := ⟨by decide, by decide⟩

/-- The theorem about the daemon applies to this connection. -/
example : Obeyed logEx 0 (plain 90) fun _ b _ => ∃ t x y, b = x ++ .load t :: y ∧ .loaded t false ∈ y :=
  let ⟨_, h, _⟩ := runEx_log
  (C101_effect h linkedEx didEx).2.1 isEx

example : Works (str "STATS") [] (tryEx [.got (plain 65), .got (msg 65 0 5), .got [1, 2], .got [3, 4, 5]]) [1, 2, 3, 4, 5] none :=
  .data (bs := [[1, 2], [3, 4, 5]]) (Or.inl ⟨by unfold Is; decide +kernel, rfl⟩) rfl rfl rfl (Nat.le_refl 8) (Nat.le_refl 8) rfl ⟨by decide, by decide⟩ ⟨by decide, by decide⟩ (by decide) (by decide)

example : Later (str "stop") (tryEx [.got (plain 65), .got (plain 76)]) :=
  ⟨_, _, _, _, _, _, _, Or.inl (by unfold Is; decide +kernel), rfl, rfl, rfl, Nat.le_refl 8, Nat.le_refl 8, rfl, ⟨by decide, by decide⟩, by decide, by decide⟩

/-! ### Challenges that are sent -/

def payEx : Bytes := str "abcdefghijklmnopqrstuvwxyzABCDEFGHIJKLMNOP-"

theorem namedEx : Named (str "_acme-challenge.a.B") [[97], [66]] := by
  have ha : DnameSpec.LabelText [97] [97] := .lit (by decide) (by decide) .nil
  have hb : DnameSpec.LabelText [66] [66] := .lit (by decide) (by decide) .nil
  refine named_iff.mpr ⟨false, ?_, by decide, by decide⟩
  have : strip (str "_acme-challenge.a.B") = [97] ++ 46 :: [66] := by decide +kernel
  rw [this]
  exact .cons (by simp) ha (by simp) (.last (by simp) hb)

theorem meansEx : Means [str "_acme-challenge.a.B", payEx] [([[97], [98]], payEx)] := by
  have := Means.cons (n := str "_acme-challenge.a.B") (p := payEx) namedEx (by decide +kernel) (fun x hx => b64u_iff.mp (List.all_eq_true.mp (by decide +kernel) x hx)) Means.nil
  exact this

example : main optsEx (str "acme-dns-01") [str "_acme-challenge.a.B", payEx] [tryEx [.got (plain 65), .got (plain 65)]] =
    .ok (.exit 0 [] none, [[⟨[], [], hello optsEx ++ msg 67 1 50 ++ ([5, 1, 97, 1, 98, 0] ++ payEx ++ [0]), plain 65 ++ plain 65, false⟩]]) := by decide +kernel

/-! ### What is not so -/

/-- The name of 82 bytes, as a label of 63 letters and another one of 16. -/
def nameEx : Bytes := List.replicate 63 97 ++ [46] ++ List.replicate 16 97

/-- C101 fails beyond success: an action may do what was not asked for. If a TCP listener allows to control but
not to set challenges, the daemon refuses `acme-dns-01` without reading the data, which it takes for further
requests then. The first byte of them is the length of the name; with 82 it is a request to replace the daemon. -/
theorem C101_false_refused : ∃ (cfg : Cfg) (s : Css.Css) (l : List Entry) (c : Chan) (rx : List Rx), CssSpec.CfgOk cfg ∧ Run cfg s l ∧ Linked c 0 l ∧
    main optsEx (str "acme-dns-01") [nameEx, payEx] [tryEx rx] = .ok (.exit 42 [] none, [[c]]) ∧ .spawn 0 200 ∈ l := by
  let c : Chan := ⟨[], [], hello optsEx ++ msg 67 1 127 ++ ([82, 63] ++ List.replicate 63 97 ++ [16] ++ List.replicate 16 97 ++ [0] ++ payEx ++ [0]), msg 65 0x030000 100 ++ plain 68, false⟩
  obtain ⟨s, h, _⟩ := Css.run_of (cfg := Css.cfgEx) (es := [.accept (some ⟨false, true⟩), .read 0 (.got (hello optsEx)) Css.envEx, .write 0 (.part 8), .read 0 (.got (msg 67 1 127)) Css.envEx, .write 0 (.part 8),
      .read 0 (.got [82, 63, 97, 97, 97, 97, 97, 97]) Css.envEx])
    (l := [.accept 0 (some ⟨false, true⟩), .req 0 (hello optsEx), .resp 0 (msg 65 0x030000 100) [] false, .out 0 (msg 65 0x030000 100) [], .req 0 (msg 67 1 127), .resp 0 (plain 68) [] false, .out 0 (plain 68) [],
      .req 0 [82, 63, 97, 97, 97, 97, 97, 97], .spawn 0 200]) (by decide) (by decide +kernel)
  refine ⟨Css.cfgEx, s, _, c, [.got (msg 65 0x030000 100), .got (plain 68)], by decide, h, ⟨by decide +kernel, by decide +kernel⟩, by decide +kernel, by simp⟩

/-- With `-i`, `stop` succeeds although there is a daemon, if the greeting fails. -/
theorem C101_false_ignored : ∃ rx c, rx = [.got (plain 76)] ∧ main { optsEx with ignoreDead := true } (str "stop") [] [tryEx rx] = .ok (.exit 0 [] none, [[c]]) ∧ c.inp = plain 76 :=
  ⟨_, ⟨[.part 8, .part 30, .part 1000], [], hello optsEx, plain 76, false⟩, rfl, by decide +kernel, rfl⟩

/-- A daemon that closes the connection before the request comes ends the program by a signal, instead of another
round. -/
theorem C101_false_pipe : ∃ t : Try, New [t] ∧ ∃ ls, main optsEx (str "reload-zones") [] [t, tryEx [.got (plain 65), .got (plain 65)]] = .ok (.killed, ls) := by
  refine ⟨⟨some ⟨[.part 8, .pipe], [.got (plain 65)], [], [], false⟩, none, false⟩, ?_, [[⟨[], [], hello optsEx, plain 65, false⟩]], by decide +kernel⟩
  intro t ht
  rw [List.mem_singleton] at ht
  subst ht
  exact ⟨fun c hc => by cases hc; exact ⟨rfl, rfl, rfl⟩, fun c hc => by cases hc⟩

end Gdnsd.Ctl
