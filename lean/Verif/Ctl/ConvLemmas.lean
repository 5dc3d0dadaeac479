/-
The first two requests of a connection and their responses, in the history of the daemon and on the
connection.
-/
import Verif.Ctl.AckLemmas
namespace Gdnsd.Ctl
open CssSpec CtlSpec
open Css (Entry Css Cfg step msgKey msgV msgD Event owner)

/-! ### Where challenges come from -/

theorem ls_chal {cfg id o l' o'} (h : Css.LS cfg id o l' o') : ∀ {l}, Css.CInv cfg id l o → ∀ {a n d b}, l' = a ++ .chal id n d :: b → ∃ r, Turns id (l ++ a) (some r) ∧ msgKey r = 67 := by
  induction h with
  | nil => intro l _ a n d b h; simp at h
  | @step _ _ l1 l2 h1 h2 ih =>
    intro l hi a n d b hl
    rcases split_cases hl with ⟨c, hc⟩ | ⟨a', rfl, hl'⟩
    · exact ih hi hc
    have hi' := h1.inv hi
    cases h2 with
    | other ho =>
      obtain ⟨_, rfl⟩ := mem_split hl'
      exact absurd rfl ho
    | @act c _ hw _ ha =>
      obtain ⟨rfl, rfl⟩ := mem_split hl'
      obtain ⟨_, hg⟩ := hi'.2 c rfl
      have hg := (Css.Good.notLast hg (Or.inl (by rw [hw]; decide))).turns
      simp only [Css.opn, hw] at hg
      refine ⟨c.rbuf, by simpa using hg, ?_⟩
      generalize msgKey c.rbuf = k at ha
      cases ha
      rfl
    | block _ =>
      rcases split_cons hl' with ⟨_, h0, _⟩ | ⟨_, _, h0⟩
      · cases h0
      · exact absurd (mem_split h0).2 (by simp)
    | recv _ _ _ => simp at hl'
    | recvAll _ => simp at hl'
    | nofd => simp at hl'
    | _ => exact absurd (mem_split hl').2 (by simp)

theorem chal_turn {cfg s L} (h : Run cfg s L) : ∀ {a id n d b}, L = a ++ .chal id n d :: b → ∃ r, Turns id a (some r) ∧ msgKey r = 67 := by
  induction h with
  | init => intro a id n d b h; simp at h
  | @step s l e s' l' h hrun he hs ih =>
    intro a id n d b hL
    rcases split_cases hL with ⟨c, hc⟩ | ⟨a1, rfl, hl'⟩
    · exact ih hc
    by_cases ha : ∃ p, e = .accept p
    · obtain ⟨p, rfl⟩ := ha
      simp only [step] at hs
      split at hs <;> (obtain ⟨_, rfl⟩ := Css.one_ok hs)
      · exact absurd (mem_split hl').2 (by simp)
      · simp at hl'
    · refine ls_chal (Css.step_loc he (fun id c hc hst => ?_) (fun p h0 => ha ⟨p, h0⟩) hs id) ((Css.run_k h).a.conn id) hl'
      obtain ⟨_, hg⟩ := ((Css.run_k h).a.conn id).2 c hc
      have hg := Css.Good.notLast hg (Or.inl (by rw [hst]; decide))
      have := hg.shape
      simp only [Css.Shape, hst] at this
      exact this.2.2.2.2.2

/-! ### The order of entries -/

theorem first_split {α} (P : α → Prop) [DecidablePred P] : ∀ (l : List α), (∀ e ∈ l, ¬ P e) ∨ ∃ a e b, l = a ++ e :: b ∧ P e ∧ ∀ x ∈ a, ¬ P x
  | [] => Or.inl (by simp)
  | x :: l => by
    by_cases hx : P x
    · exact Or.inr ⟨[], x, l, rfl, hx, by simp⟩
    · rcases first_split P l with h | ⟨a, e, b, rfl, he, ha⟩
      · exact Or.inl (by simpa using ⟨hx, h⟩)
      · exact Or.inr ⟨x :: a, e, b, rfl, he, by simpa using ⟨hx, ha⟩⟩

def respOf (id : Nat) (e : Entry) : Prop := ∃ m d f, e = .resp id m d f

instance (id : Nat) : DecidablePred (respOf id) := fun e =>
  match e with
  | .resp i m d f => if h : i = id then .isTrue ⟨m, d, f, by rw [h]⟩ else .isFalse (by rintro ⟨_, _, _, h'⟩; cases h'; exact h rfl)
  | .accept _ _ | .req _ _ | .out _ _ _ | .close _ | .load _ | .loaded _ _ | .chal _ _ _ | .flush _ | .share _ | .spawn _ _ | .takeover _ _ | .died _ | .kill _ | .stop _ | .signal =>
    .isFalse (by rintro ⟨_, _, _, h⟩; cases h)

/-- Without responses in between, a client that owes nothing has asked nothing. -/
theorem none_none {id : Nat} {l v : List Entry} (h : Turns id (l ++ v) none) (hno : ∀ e ∈ v, ¬ respOf id e) : ∀ e ∈ v, turn e ≠ some id := by
  suffices ∀ (n : Nat) (v : List Entry), v.length = n → Turns id (l ++ v) none → (∀ e ∈ v, ¬ respOf id e) → ∀ e ∈ v, turn e ≠ some id from this _ v rfl h hno
  intro n
  induction n with
  | zero => intro v hv _ _; rw [List.length_eq_zero_iff.mp hv]; simp
  | succ n ih =>
    intro v hv h hno
    rcases List.eq_nil_or_concat v with rfl | ⟨v', x, rfl⟩
    · cases hv
    rw [List.concat_eq_append] at h hno hv ⊢
    rw [← List.append_assoc] at h
    rcases h.inv_snoc with ⟨m, _, h0, _⟩ | ⟨r, m, d, f, rfl, _⟩ | ⟨hx, h⟩
    · cases h0
    · exact absurd ⟨m, d, f, rfl⟩ (hno _ (by simp))
    · have := ih v' (by simpa using hv) h fun e he => hno e (by simp [he])
      intro e he
      rw [List.mem_append, List.mem_singleton] at he
      rcases he with he | rfl
      · exact this e he
      · exact hx

theorem owed_none {cfg : Cfg} {id : Nat} {l : List Entry} (h : ∀ e ∈ l, ¬ respOf id e) : owed cfg id l = [] := by
  induction l with
  | nil => rfl
  | cons e l ih =>
    have he := h e (by simp)
    rw [show e :: l = [e] ++ l from rfl, Css.owed_append, ih fun e' he' => h e' (by simp [he'])]
    cases e <;> simp [owed]
    next i m d f => intro hi; exact absurd ⟨m, d, f, by rw [hi]⟩ he

theorem taken_append {id l l'} : taken id (l ++ l') = taken id l ++ taken id l' := by simp [taken]

theorem taken_nil {id : Nat} : ∀ {l : List Entry}, (∀ e ∈ l, turn e ≠ some id) → (∀ {a n d b}, l ≠ a ++ .chal id n d :: b) → taken id l = []
  | [], _, _ => rfl
  | e :: l, h, h' => by
    rw [show e :: l = [e] ++ l from rfl, taken_append, taken_nil (l := l) (fun e' he' => h e' (by simp [he'])) fun {a n d b} h0 => h' (a := e :: a) (n := n) (d := d) (b := b) (by rw [h0]; rfl)]
    have he := h e (by simp)
    cases e <;> simp [taken, turn] at he ⊢
    next => intro h0; exact absurd h0 he
    next i n d => intro h0; exact absurd (by rw [h0]; rfl) (h' (a := []) (n := n) (d := d) (b := l))

/-- One request and its response, after what is in order. -/
theorem exchange {cfg s l0 rest} {id : Nat} (h : Run cfg s (l0 ++ rest)) (h0 : Turns id l0 none) (hne : owed cfg id rest ≠ []) :
    ∃ v r b m d f rest', rest = v ++ .req id r :: b ++ .resp id m d f :: rest' ∧ (∀ e ∈ v, turn e ≠ some id) ∧ (∀ e ∈ b, turn e ≠ some id) ∧
      Why cfg (l0 ++ v ++ .req id r :: b) id m d f r ∧ Turns id (l0 ++ v ++ .req id r :: b ++ [.resp id m d f]) none ∧ r.length = 8 ∧ m.length = 8 ∧
      taken id v = [] ∧ (msgKey r ≠ 67 → taken id b = []) := by
  rcases first_split (respOf id) rest with hno | ⟨a, e, rest', rfl, ⟨m, d, f, rfl⟩, hno⟩
  · exact absurd (owed_none hno) hne
  rw [← List.append_assoc] at h
  obtain ⟨r, hr⟩ := (((Css.run_k h).a.conn id).1 (l0 ++ a) _ rest' rfl).resp m d f rfl
  have hwhy := resp_why h rfl hr
  obtain ⟨x, b, hx, hb⟩ := hr.last r rfl
  have hsplit : ∃ v, a = v ++ .req id r :: b ∧ x = l0 ++ v := by
    rcases split_cases hx with ⟨c, hc⟩ | ⟨v, rfl, hv⟩
    · exfalso
      have : ∀ e ∈ c, turn e ≠ some id := by
        intro e he
        refine hb e ?_
        rw [hc] at hx
        simp only [List.append_assoc, List.cons_append, List.append_cancel_left_eq, List.cons.injEq, true_and] at hx
        rw [← hx]; simp [he]
      rw [hc] at h0
      have := h0.tail this
      cases this
    · exact ⟨v, hv, rfl⟩
  obtain ⟨v, rfl, rfl⟩ := hsplit
  have h' : Run cfg s (l0 ++ v ++ .req id r :: (b ++ .resp id m d f :: rest')) := by simpa using h
  have hreq := (((Css.run_k h').a.conn id).1 (l0 ++ v) _ _ rfl).req r rfl
  have hv := none_none hreq.1 fun e he => hno e (by simp [he])
  have hT : Turns id (l0 ++ v ++ .req id r :: b) (some r) := by simpa using hr
  refine ⟨v, r, b, m, d, f, rest', by simp, hv, hb, by simpa using hwhy, Turns.resp hT, hreq.2.1, (Css.C73_header h).1, ?_, ?_⟩
  · refine taken_nil hv ?_
    rintro v1 n d' v2 rfl
    have h2 : Run cfg s ((l0 ++ v1) ++ .chal id n d' :: (v2 ++ .req id r :: (b ++ .resp id m d f :: rest'))) := by simpa using h'
    obtain ⟨q, hq, _⟩ := chal_turn h2 rfl
    cases (Css.Turns.more h0 (l' := v1) fun e he => hv e (by simp [he])).unique hq
  · intro h67
    refine taken_nil hb ?_
    rintro v1 n d' v2 rfl
    have h2 : Run cfg s ((l0 ++ v ++ [.req id r] ++ v1) ++ .chal id n d' :: (v2 ++ .resp id m d f :: rest')) := by simpa using h'
    obtain ⟨q, hq, hk⟩ := chal_turn h2 rfl
    cases (Css.Turns.more (Turns.req (m := r) hreq.1) (l' := v1) fun e he => hb e (by simp [he])).unique hq
    exact h67 hk

theorem not_resp {id : Nat} {l : List Entry} (h : ∀ e ∈ l, turn e ≠ some id) : ∀ e ∈ l, ¬ respOf id e := by
  rintro e he ⟨m, d, f, rfl⟩
  exact h _ he rfl

theorem prefix_eq {a b c d : Bytes} (h : a ++ b <+: c ++ d) (hl : a.length = c.length) : a = c ∧ b <+: d := by
  obtain ⟨t, ht⟩ := h
  rw [List.append_assoc] at ht
  obtain ⟨h1, h2⟩ := List.append_inj ht hl
  exact ⟨h1, t, h2⟩

/-- One exchange as the client sees it. -/
theorem conv {cfg s l0 rest} {id : Nat} {req resp : Bytes} (h : Run cfg s (l0 ++ rest)) (h0 : Turns id l0 none) (ht : taken id rest <+: req) (ho : resp <+: owed cfg id rest)
    (hne : resp ≠ []) (hk : msgKey (req.take 8) ≠ 84) :
    ∃ v b m d f rest', rest = v ++ .req id (req.take 8) :: b ++ .resp id m d f :: rest' ∧ (∀ e ∈ b, turn e ≠ some id) ∧
      Why cfg (l0 ++ v ++ .req id (req.take 8) :: b) id m d f (req.take 8) ∧ Turns id (l0 ++ v ++ .req id (req.take 8) :: b ++ [.resp id m d f]) none ∧
      m.length = 8 ∧ (msgKey (req.take 8) ≠ 67 → taken id b = []) ∧ resp <+: m ++ d ++ owed cfg id rest' ∧ taken id b ++ taken id rest' <+: req.drop 8 := by
  obtain ⟨v, r, b, m, d, f, rest', rfl, hv, hb, hw, hT, hr8, hm8, ht1, ht2⟩ := exchange h h0 (by rintro h1; rw [h1, List.prefix_nil] at ho; exact hne ho)
  have htk : taken id (v ++ .req id r :: b ++ .resp id m d f :: rest') = r ++ (taken id b ++ taken id rest') := by
    rw [taken_append, taken_append, ht1]
    simp [taken]
  rw [htk] at ht
  have hr : req.take 8 = r := by
    obtain ⟨t, ht⟩ := ht
    rw [← ht, List.append_assoc, ← hr8, List.take_left]
  have hdr : taken id b ++ taken id rest' <+: req.drop 8 := by
    obtain ⟨t, ht⟩ := ht
    exact ⟨t, by rw [← ht, ← hr8, List.append_assoc r, List.drop_left]⟩
  rw [hr] at hk ⊢
  refine ⟨v, b, m, d, f, rest', rfl, hb, hw, hT, hm8, ht2, ?_, hdr⟩
  have hf := hw.fds hk
  subst hf
  have : owed cfg id (v ++ .req id r :: b ++ .resp id m d false :: rest') = m ++ d ++ owed cfg id rest' := by
    rw [Css.owed_append, Css.owed_append, owed_none (not_resp hv), show (.req id r :: b : List Entry) = [.req id r] ++ b from rfl, Css.owed_append, owed_none (not_resp hb)]
    simp [owed, CssSpec.wire]
  rwa [this] at ho

/-- What was talked about is in the history of the daemon. -/
theorem talk_run {cfg s l} {id : Nat} {o : Opts} {c : Chan} {i : Info} {req resp : Bytes} (h : Run cfg s l) (hl : Linked c id l) (ht : Talk o c i req resp) :
    i = ⟨cfg.self % 2 ^ 32, cfg.version % 2 ^ 24⟩ ∧ (resp ≠ [] → msgKey (req.take 8) ≠ 84 →
      ∃ a b m d f rest, l = a ++ .req id (req.take 8) :: b ++ .resp id m d f :: rest ∧ (∀ e ∈ b, turn e ≠ some id) ∧ Why cfg (a ++ .req id (req.take 8) :: b) id m d f (req.take 8) ∧
        m.length = 8 ∧ resp <+: m ++ d ++ owed cfg id rest ∧ taken id b ++ taken id rest <+: req.drop 8) := by
  obtain ⟨m0, ha, rfl, hout, hinp⟩ := ht
  obtain ⟨hl1, hl2⟩ := hl
  have hs := (Css.C73_prefix h id).1
  have ho := hl1.trans hs
  rw [hinp] at ho
  rw [hout] at hl2
  have htake : (hello o ++ req).take 8 = hello o := List.take_left' rfl
  have hdrop : (hello o ++ req).drop 8 = req := List.drop_left' rfl
  have h73 : msgKey (hello o) = 73 := rfl
  obtain ⟨v, b, m, d, f, rest, rfl, hb, hw, hT, hm8, htb, hp, htk⟩ := conv (l0 := []) h Turns.nil hl2 ho
    (by intro h0; have := congrArg List.length h0; rw [List.length_append, ha.1] at this; simp at this) (by rw [htake, h73]; decide)
  rw [htake] at hw hT htb
  rw [hdrop] at htk
  have hd := hw.data (by rw [h73]; decide)
  subst hd
  rw [List.append_nil] at hp
  obtain ⟨rfl, hq⟩ := prefix_eq hp (by rw [ha.1, hm8])
  obtain ⟨_, _, hhv, hhd⟩ := hw.info h73 ha.2
  refine ⟨by rw [hhv, hhd], fun hne hk => ?_⟩
  rw [htb (by rw [h73]; decide), List.nil_append] at htk
  have h' : Run cfg s (([] ++ v ++ .req id (hello o) :: b ++ [.resp id m0 [] f]) ++ rest) := by
    rw [htake] at h; simpa using h
  obtain ⟨v2, b2, m2, d2, f2, rest2, rfl, hb2, hw2, _, hm2, _, hp2, htk2⟩ := conv h' hT htk hq hne hk
  refine ⟨_, b2, m2, d2, f2, rest2, ?_, hb2, hw2, hm2, hp2, htk2⟩
  rw [htake]
  simp

end Gdnsd.Ctl
