/-
Descriptors: how they come, and to whom they go.
-/
import Verif.Take.Spec
namespace Gdnsd.Take
open TakeSpec
open Css (msgKey msgV)

/-! ### Receiving -/

theorem getFds_sound : ∀ {ms : List RxMsg} {w : Option Nat} {acc r}, getFds w acc ms = some r → w.all (acc.length < ·) = true →
    ∃ us rest fds n, ms = us ++ rest ∧ r = acc ++ fds ∧ Carries fds n us ∧ (∀ k, w = some k → n = k) ∧ r.length = n ∧ 2 ≤ n ∧ us ≠ []
  | [], w, acc, r, h, _ => by simp [getFds] at h
  | .fail :: ms, w, acc, r, h, _ => by simp [getFds] at h
  | .got b fds t :: ms, w, acc, r, h, hw => by
    simp only [getFds] at h
    split at h
    · cases h
    next h1 =>
    split at h
    · cases h
    next h2 =>
    split at h
    · cases h
    next l =>
    split at h
    · cases h
    next h3 =>
    have h8 : b.length = 8 := Decidable.byContradiction fun h0 => h1 (Or.inl h0)
    have ht : t = false := by cases t with | false => rfl | true => exact absurd (Or.inr rfl) h1
    have hk : msgKey b = 65 := Decidable.byContradiction fun h0 => h2 (Or.inl h0)
    have hv : w.getD (msgV b) = msgV b := Decidable.byContradiction fun h0 => h2 (Or.inr (Or.inl h0))
    rw [hv] at h h2 h3
    have hv2 : 2 ≤ msgV b := Decidable.byContradiction fun h0 => h2 (Or.inr (Or.inr (by omega)))
    have hl : l ≠ [] := fun h0 => h3 (Or.inl h0)
    have hle : l.length + acc.length ≤ msgV b := Decidable.byContradiction fun h0 => h3 (Or.inr (by omega))
    have hww : ∀ k, w = some k → msgV b = k := by rintro k rfl; exact hv.symm
    subst ht
    split at h
    · next hlt =>
      obtain ⟨us, rest, fds, n, hms, hr, ⟨cs, hcs, hne, bs, hbl, hbs, hus⟩, hn, hlen, h2n, _⟩ := getFds_sound h (by simpa using hlt)
      have hn' : n = msgV b := hn _ rfl
      refine ⟨.got b (some l) false :: us, rest, l ++ fds, n, by rw [hms]; rfl, by rw [hr, List.append_assoc], ⟨l :: cs, by rw [hcs]; rfl, ?_, b :: bs, by simp [hbl], ?_, by rw [hus]; rfl⟩, ?_, hlen, h2n, by simp⟩
      · intro c hc
        rcases List.mem_cons.mp hc with rfl | hc
        · exact hl
        · exact hne c hc
      · intro c hc
        rcases List.mem_cons.mp hc with rfl | hc
        · exact ⟨h8, hk, hn'.symm⟩
        · exact hbs c hc
      · intro k hk'; rw [hn']; exact hww k hk'
    · next hlt =>
      simp only [Option.some.injEq] at h
      subst h
      refine ⟨[.got b (some l) false], ms, l, msgV b, rfl, rfl, ⟨[l], by simp, by simpa using hl, [b], rfl, by simpa using ⟨h8, hk⟩, rfl⟩, hww, by rw [List.length_append]; omega, hv2, by simp⟩

theorem getFds_complete : ∀ {cs : List (List Nat)} {bs : List Bytes} {w : Option Nat} {acc n rest}, (∀ c ∈ cs, c ≠ []) → bs.length = cs.length → (∀ b ∈ bs, b.length = 8 ∧ msgKey b = 65 ∧ msgV b = n) →
    cs ≠ [] → (∀ k, w = some k → k = n) → acc.length + cs.flatten.length = n → 2 ≤ n →
    getFds w acc ((bs.zip cs).map (fun x => .got x.1 (some x.2) false) ++ rest) = some (acc ++ cs.flatten)
  | [], _, _, _, _, _, _, _, _, h, _, _, _ => absurd rfl h
  | c :: cs, [], _, _, _, _, _, h, _, _, _, _, _ => by simp at h
  | c :: cs, b :: bs, w, acc, n, rest, hne, hl, hb, _, hw, hlen, hn => by
    obtain ⟨h8, hk, hv⟩ := hb b (by simp)
    have hc : c ≠ [] := hne c (by simp)
    have hc1 : 1 ≤ c.length := by cases c with | nil => exact absurd rfl hc | cons => simp
    have hg : w.getD (msgV b) = n := by
      cases w with
      | none => exact hv
      | some k => exact hw k rfl
    rw [List.flatten_cons, List.length_append] at hlen
    simp only [List.zip_cons_cons, List.map_cons, List.cons_append, getFds]
    rw [hg, if_neg (by rw [h8]; simp), if_neg (by rw [hk, hv]; simp; omega), if_neg (by rintro (h0 | h0); exact hc h0; omega)]
    cases cs with
    | nil =>
      simp only [List.flatten_nil, List.length_nil] at hlen
      rw [if_neg (by omega)]
      simp
    | cons c2 cs =>
      have hc2 : c2 ≠ [] := hne c2 (by simp)
      have : 1 ≤ c2.length := by cases c2 with | nil => exact absurd rfl hc2 | cons => simp
      rw [List.flatten_cons, List.length_append] at hlen
      rw [if_pos (by omega)]
      have ih := @getFds_complete (c2 :: cs) bs (some n) (acc ++ c) n rest (fun x hx => hne x (by simp [hx])) (by simpa using hl) (fun x hx => hb x (by simp [hx])) (by simp)
        (fun k hk => by simpa using hk.symm) (by rw [List.length_append, List.flatten_cons, List.length_append]; omega) hn
      rw [ih]
      simp

/-! ### Importing -/

theorem same_iff {a b : Addr} : same a b = true ↔ b.v6 = a.v6 ∧ b.ip = a.ip ∧ b.port = a.port := by
  simp only [same, Bool.and_eq_true, beq_iff_eq]
  constructor
  · rintro ⟨⟨h1, h2⟩, h3⟩; exact ⟨h1.symm, h2.symm, h3.symm⟩
  · rintro ⟨h1, h2, h3⟩; exact ⟨⟨h1.symm, h2.symm⟩, h3.symm⟩

/-- Threads of a class without a socket. -/
def free (udp : Bool) (a : Addr) (ts : List Thread) : Nat := ts.countP fun t => t.sock.isNone && t.udp == udp && same t.addr a

theorem same_trans {a b c : Addr} (h : same a b = true) : same a c = same b c := by
  obtain ⟨h1, h2, h3⟩ := same_iff.mp h
  simp only [same, h1, h2, h3]

theorem place_some : ∀ {ts : List Thread} {udp a fd ts'}, place udp a fd ts = some ts' →
    ∃ x t y, ts = x ++ t :: y ∧ ts' = x ++ { t with sock := some fd } :: y ∧ t.sock = none ∧ t.udp = udp ∧ same t.addr a = true
  | [], _, _, _, _, h => by simp [place] at h
  | t :: ts, udp, a, fd, ts', h => by
    simp only [place] at h
    split at h
    · next h0 =>
      simp only [Option.some.injEq] at h
      exact ⟨[], t, ts, rfl, h.symm, h0⟩
    · obtain ⟨ts1, h1, rfl⟩ := Option.map_eq_some_iff.mp h
      obtain ⟨x, u, y, rfl, rfl, h2⟩ := place_some h1
      exact ⟨t :: x, u, y, rfl, rfl, h2⟩

theorem place_none : ∀ {ts : List Thread} {udp a fd}, place udp a fd ts = none → ∀ t ∈ ts, t.udp = udp → same t.addr a = true → t.sock ≠ none
  | [], _, _, _, _ => by simp
  | t :: ts, udp, a, fd, h => by
    simp only [place] at h
    split at h
    · cases h
    next h0 =>
    intro u hu
    rcases List.mem_cons.mp hu with rfl | hu
    · exact fun h1 h2 h3 => h0 ⟨h3, h1, h2⟩
    · exact place_none (Option.map_eq_none_iff.mp h) u hu

/-- What a step and a sequence of them have in common. -/
structure Moves (kind : Nat → Kind) (ts : List Thread) (fds : List Nat) (ts' : List Thread) (closed : List Nat) : Prop where
  given : Each (Given kind) ts ts'
  perm : (got ts ts' ++ closed ++ fds.filter fun fd => kind fd = .bad).Perm fds
  full : ∀ fd ∈ closed, ∀ udp a, kind fd = .sock udp a → free udp a ts' = 0
  free : ∀ udp a, free udp a ts' = free udp a ts - fds.countP fun fd => match kind fd with | .sock u b => u == udp && same b a | _ => false

theorem forall2_refl {α} {R : α → α → Prop} (h : ∀ a, R a a) : ∀ {l : List α}, Each R l l
  | [] => .nil
  | _ :: _ => .cons (h _) (forall2_refl h)

theorem given_refl {kind : Nat → Kind} {l : List Thread} : Each (Given kind) l l := forall2_refl (R := Given kind) fun _ => Or.inl rfl

theorem forall2_append {α β} {R : α → β → Prop} : ∀ {a : List α} {b c d}, Each R a b → Each R c d → Each R (a ++ c) (b ++ d)
  | _, _, _, _, .nil, h => h
  | _, _, _, _, .cons h1 h2, h => .cons h1 (forall2_append h2 h)

theorem got_refl : ∀ {ts : List Thread}, got ts ts = []
  | [] => rfl
  | t :: ts => by
    rw [got, got_refl]
    split
    · next h => rw [h]; rfl
    · rfl

theorem got_append : ∀ {a b c d : List Thread}, a.length = b.length → got (a ++ c) (b ++ d) = got a b ++ got c d
  | [], [], _, _, _ => rfl
  | [], _ :: _, _, _, h => by simp at h
  | _ :: _, [], _, _, h => by simp at h
  | _ :: a, _ :: b, _, _, h => by
    simp only [List.cons_append, got, List.append_assoc]
    rw [got_append (by simpa using h)]

theorem free_zero {udp a} {ts : List Thread} : free udp a ts = 0 ↔ ∀ t ∈ ts, t.udp = udp → same t.addr a = true → t.sock ≠ none := by
  simp only [free, List.countP_eq_zero, Bool.and_eq_true, beq_iff_eq, Option.isNone_iff_eq_none, not_and]
  exact ⟨fun h t ht h1 h2 h3 => h t ht ⟨h3, h1⟩ h2, fun h t ht h1 h2 => h t ht h1.2 h2 h1.1⟩

theorem importFd_moves {kind ts fd ts' c} (h : importFd kind ts fd = (ts', c)) : Moves kind ts [fd] ts' c := by
  have hsame : kind fd = .bad ∨ kind fd = .noname ∨ kind fd = .notype ∨ (∃ udp a, kind fd = .sock udp a ∧ free udp a ts = 0) → ts' = ts →
      c = (if kind fd = .bad then [] else [fd]) → Moves kind ts [fd] ts' c := by
    rintro hk rfl rfl
    refine ⟨given_refl, ?_, ?_, ?_⟩
    · rw [got_refl]
      rcases hk with h1 | h1 | h1 | ⟨u, a, h1, _⟩ <;> simp [h1]
    · rcases hk with h1 | h1 | h1 | ⟨u, a, h1, h2⟩
      · simp [h1]
      · simp [h1]
      · simp [h1]
      · rw [h1, if_neg (by simp)]
        intro x hx udp b hb
        rw [List.mem_singleton.mp hx, h1] at hb
        cases hb
        exact h2
    · intro udp a
      rcases hk with h1 | h1 | h1 | ⟨u, b, h1, h2⟩
      · simp [List.countP_cons, h1]
      · simp [List.countP_cons, h1]
      · simp [List.countP_cons, h1]
      · simp only [List.countP_cons, List.countP_nil, h1, Nat.zero_add]
        split
        · next h3 =>
          simp only [Bool.and_eq_true, beq_iff_eq] at h3
          have : free udp a ts' = free u b ts' := by
            rw [← h3.1]; unfold free
            congr 1; funext t
            rw [show same t.addr a = same t.addr b by
              obtain ⟨e1, e2, e3⟩ := same_iff.mp h3.2
              simp [same, e1, e2, e3]]
          omega
        · simp
  unfold importFd at h
  split at h
  · next h1 => cases h; exact hsame (Or.inl h1) rfl (by simp [h1])
  · next h1 => cases h; exact hsame (Or.inr (Or.inl h1)) rfl (by simp [h1])
  · next h1 => cases h; exact hsame (Or.inr (Or.inr (Or.inl h1))) rfl (by simp [h1])
  · next u b h1 =>
    split at h
    · next ts1 hp =>
      cases h
      obtain ⟨x, t, y, rfl, rfl, h2, h3, h4⟩ := place_some hp
      refine ⟨?_, ?_, by simp, ?_⟩
      · refine forall2_append (given_refl) (.cons (Or.inr ⟨fd, h2, ⟨b, by rw [h1, h3], same_iff.mp h4⟩, rfl⟩) (given_refl))
      · rw [got_append rfl, got_refl, got, got_refl, if_pos h2]
        simp [h1]
      · intro udp a
        have hs : same t.addr a = same b a := same_trans h4
        simp only [free, List.countP_append, List.countP_cons, List.countP_nil, h1, h2, h3, hs]
        by_cases hc : (u == udp && same b a) = true
        · simp [hc]
        · simp [hc]
    · next hp =>
      cases h
      exact hsame (Or.inr (Or.inr (Or.inr ⟨u, b, h1, free_zero.mpr (place_none hp)⟩))) rfl (by simp [h1])

theorem given_trans {kind} : ∀ {a b c : List Thread}, Each (Given kind) a b → Each (Given kind) b c → Each (Given kind) a c
  | _, _, _, .nil, .nil => .nil
  | _, _, _, .cons h1 h2, .cons h3 h4 => by
    refine .cons ?_ (given_trans h2 h4)
    rcases h1 with rfl | ⟨fd, h5, h6, rfl⟩
    · exact h3
    · rcases h3 with rfl | ⟨_, h7, _⟩
      · exact Or.inr ⟨fd, h5, h6, rfl⟩
      · cases h7

theorem got_trans {kind} : ∀ {a b c : List Thread}, Each (Given kind) a b → Each (Given kind) b c → (got a c).Perm (got a b ++ got b c)
  | _, _, _, .nil, .nil => List.Perm.refl _
  | _, _, _, .cons (a := t) (b := u) h1 h2, .cons (b := v) h3 h4 => by
    have ih := got_trans h2 h4
    simp only [got]
    have hh : (if t.sock = none then v.sock.toList else []) = (if t.sock = none then u.sock.toList else []) ++ (if u.sock = none then v.sock.toList else []) := by
      rcases h1 with rfl | ⟨fd, h5, h6, rfl⟩
      · by_cases h : u.sock = none <;> simp [h]
      · rcases h3 with rfl | ⟨_, h7, _⟩
        · simp [h5]
        · cases h7
    rw [hh, List.append_assoc, List.append_assoc]
    refine List.Perm.append_left _ ?_
    refine (List.Perm.append_left _ ih).trans ?_
    rw [← List.append_assoc, ← List.append_assoc]
    exact List.Perm.append_right _ List.perm_append_comm

theorem free_le {kind ts fds ts' c udp a} (h : Moves kind ts fds ts' c) (h0 : free udp a ts = 0) : free udp a ts' = 0 := by
  rw [h.free, h0, Nat.zero_sub]

theorem importFds_moves {kind} : ∀ {fds : List Nat} {ts ts' c}, importFds kind ts fds = (ts', c) → Moves kind ts fds ts' c
  | [], ts, ts', c, h => by
    cases h
    exact ⟨given_refl, by rw [got_refl]; exact List.Perm.refl _, by simp, by simp⟩
  | fd :: fds, ts, ts', c, h => by
    obtain ⟨ts1, c1, h1⟩ : ∃ ts1 c1, importFd kind ts fd = (ts1, c1) := ⟨_, _, rfl⟩
    obtain ⟨ts2, c2, h2⟩ : ∃ ts2 c2, importFds kind ts1 fds = (ts2, c2) := ⟨_, _, rfl⟩
    simp only [importFds, h1, h2, Prod.mk.injEq] at h
    obtain ⟨rfl, rfl⟩ := h
    have m1 := importFd_moves h1
    have m2 := importFds_moves h2
    refine ⟨given_trans m1.given m2.given, ?_, ?_, ?_⟩
    · have hf : (fd :: fds).filter (fun fd => decide (kind fd = .bad)) = [fd].filter (fun fd => decide (kind fd = .bad)) ++ fds.filter (fun fd => decide (kind fd = .bad)) := by
        rw [← List.filter_append]; rfl
      rw [hf]
      have hp := m1.perm.append m2.perm
      refine List.Perm.trans ?_ hp
      refine ((got_trans m1.given m2.given).append_right _ |>.append_right _).trans ?_
      rw [List.perm_iff_count]
      intro x
      simp only [List.count_append]
      omega
    · intro x hx udp a hk
      rcases List.mem_append.mp hx with hx | hx
      · exact free_le m2 (m1.full x hx udp a hk)
      · exact m2.full x hx udp a hk
    · intro udp a
      rw [m2.free, m1.free, show fd :: fds = [fd] ++ fds from rfl, List.countP_append]
      omega

theorem each_length {α β} {R : α → β → Prop} {l l'} (h : Each R l l') : l.length = l'.length := by
  induction h with
  | nil => rfl
  | cons _ _ ih => simp [ih]

/-- As many sockets as threads, each fitting its own. -/
theorem count_fits {kind : Nat → Kind} {udp a} {fds ts} (h : Each (fun fd t => Fits (kind fd) t) fds ts) :
    fds.countP (fun fd => match kind fd with | .sock u b => u == udp && same b a | _ => false) = ts.countP fun t => t.udp == udp && same t.addr a := by
  induction h with
  | nil => rfl
  | @cons fd t fds ts h1 _ ih =>
    obtain ⟨b, hb, h2⟩ := h1
    rw [List.countP_cons, List.countP_cons, ih, hb]
    dsimp only
    rw [same_trans (same_iff.mpr h2)]

theorem all_got {kind ts ts'} (h : Each (Given kind) ts ts') (h0 : ∀ t ∈ ts, t.sock = none) (h1 : ∀ t ∈ ts', t.sock ≠ none) : (got ts ts').length = ts.length := by
  induction h with
  | nil => rfl
  | @cons t t' ts ts' h2 _ ih =>
    simp only [got, h0 t (by simp), if_true, List.length_append, List.length_cons]
    rw [ih (fun u hu => h0 u (by simp [hu])) fun u hu => h1 u (by simp [hu])]
    cases hs : t'.sock with
    | none => exact absurd hs (h1 t' (by simp))
    | some x => simp; omega

theorem given_class {kind ts ts'} (h : Each (Given kind) ts ts') : ∀ t' ∈ ts', ∃ t ∈ ts, t.udp = t'.udp ∧ t.addr = t'.addr := by
  induction h with
  | nil => simp
  | @cons t t' ts ts' h2 _ ih =>
    intro u hu
    rcases List.mem_cons.mp hu with rfl | hu
    · rcases h2 with rfl | ⟨_, _, _, rfl⟩
      · exact ⟨u, by simp, rfl, rfl⟩
      · exact ⟨t, by simp, rfl, rfl⟩
    · obtain ⟨t1, h3, h4⟩ := ih u hu
      exact ⟨t1, by simp [h3], h4⟩

theorem same_refl (a : Addr) : same a a = true := same_iff.mpr ⟨rfl, rfl, rfl⟩

theorem all_placed {kind fds ts ts' c us} (h : importFds kind ts fds = (ts', c)) (h0 : ∀ t ∈ ts, t.sock = none) (hp : us.Perm ts)
    (hf : Each (fun fd t => Fits (kind fd) t) fds us) : (∀ t ∈ ts', t.sock ≠ none) ∧ c = [] := by
  have m := importFds_moves h
  have hz : ∀ t ∈ ts', t.sock ≠ none := by
    intro t ht
    have hfree : free t.udp t.addr ts' = 0 := by
      rw [m.free, count_fits hf, hp.countP_eq]
      have : free t.udp t.addr ts = ts.countP fun u => u.udp == t.udp && same u.addr t.addr := by
        unfold free
        refine List.countP_congr fun u hu => ?_
        simp [h0 u hu]
      omega
    exact free_zero.mp hfree t ht rfl (same_refl _)
  refine ⟨hz, ?_⟩
  have h1 := m.perm.length_eq
  have h2 := all_got m.given h0 hz
  have h3 := each_length hf
  have h4 := hp.length_eq
  simp only [List.length_append] at h1
  exact List.length_eq_zero_iff.mp (by omega)

end Gdnsd.Take
