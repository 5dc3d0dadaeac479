/-
The three processes of `gdnsd daemonize`.
-/
import Verif.Life.Spec
import Verif.Take.Props
namespace Gdnsd.Life
open LifeSpec
open Take (Eff)

/-- The second process has not forked. -/
def young : Mid → Bool
  | .none | .close | .setsid | .sighup | .fork => true
  | _ => false

/-- What holds whatever happens. -/
structure Inv (main : List Eff) (s : Sys) : Prop where
  pre : s.did <+: main
  fresh : s.dmn = .none ∨ s.dmn = .reopen → s.did = []
  split : ∀ todo p, s.dmn = .run todo p → s.did ++ todo = main ∧ (p = true ↔ .ready ∉ s.did) ∧ ∀ n, .exit n ∉ s.did
  bytes : 0 < s.bytes → .ready ∈ s.did
  zero : s.fg = .exit 0 → .ready ∈ s.did
  start : s.fg = .fork → s.mid = .none
  child : s.fg = .close ∨ s.fg = .wait → s.mid ≠ .none
  early : young s.mid = true → s.dmn = .none

theorem init_inv (main : List Eff) : Inv main Sys.init :=
  ⟨List.nil_prefix, fun _ => rfl, fun _ _ h => (by cases h), fun h => (by cases h), fun h => (by cases h), fun _ => rfl, fun h => (by rcases h with h | h <;> cases h), fun _ => rfl⟩

theorem fg_inv {main : List Eff} {ign ok : Bool} {s s' : Sys} (i : Inv main s) (h : fgStep ign ok s = some s') : Inv main s' := by
  obtain ⟨i1, i2, i3, i4, i5, i6, i7, i8⟩ := i
  unfold fgStep at h
  split at h
  · rename_i hf
    cases h
    have hm := i8 (by rw [i6 hf]; rfl)
    split
    · exact ⟨i1, i2, i3, i4, fun h => (by cases h), fun h => (by cases h), fun _ h => (by cases h), fun _ => hm⟩
    · exact ⟨i1, i2, i3, i4, fun h => (by cases h), fun h => (by cases h), fun h => (by rcases h with h | h <;> cases h), i8⟩
  · rename_i hf
    cases h
    exact ⟨i1, i2, i3, i4, fun h => (by cases h), fun h => (by cases h), fun _ => i7 (.inl hf), i8⟩
  · split at h
    · cases h
      refine ⟨i1, i2, i3, i4, ?_, ?_, ?_, i8⟩ <;> dsimp only
      · intro h; split at h
        · cases h
        · split at h <;> cases h
      · intro h; split at h
        · cases h
        · split at h <;> cases h
      · intro h; split at h
        · rcases h with h | h <;> cases h
        · split at h <;> rcases h with h | h <;> cases h
    · cases h
  · split at h
    · rename_i hb
      cases h
      exact ⟨i1, i2, i3, fun _ => i4 hb, fun _ => i4 hb, fun h => (by cases h), fun h => (by rcases h with h | h <;> cases h), i8⟩
    · split at h
      · cases h
        exact ⟨i1, i2, i3, i4, fun h => (by cases h), fun h => (by cases h), fun h => (by rcases h with h | h <;> cases h), i8⟩
      · cases h
  · cases h

theorem mid_inv {main : List Eff} {ok : Bool} {s s' : Sys} (i : Inv main s) (h : midStep ok s = some s') : Inv main s' := by
  obtain ⟨i1, i2, i3, i4, i5, i6, i7, i8⟩ := i
  have hs : ∀ m, s.mid = m → m ≠ .none → s.fg ≠ .fork := fun m hm hn hf => hn (by rw [← hm]; exact i6 hf)
  unfold midStep at h
  split at h
  · cases h
  · rename_i hm
    cases h
    exact ⟨i1, i2, i3, i4, i5, fun hf => absurd hf (hs _ hm (by simp)), fun _ h => (by cases h), fun _ => i8 (by rw [hm]; rfl)⟩
  · rename_i hm
    cases h
    refine ⟨i1, i2, i3, i4, i5, fun hf => absurd hf (hs _ hm (by simp)), ?_, fun _ => i8 (by rw [hm]; rfl)⟩
    dsimp only; intro _ h; split at h <;> cases h
  · rename_i hm
    cases h
    refine ⟨i1, i2, i3, i4, i5, fun hf => absurd hf (hs _ hm (by simp)), ?_, fun _ => i8 (by rw [hm]; rfl)⟩
    dsimp only; intro _ h; split at h <;> cases h
  · rename_i hm
    cases h
    have hd := i8 (by rw [hm]; rfl)
    split
    · refine ⟨i1, fun _ => i2 (.inl hd), fun _ _ h => (by cases h), i4, i5, fun hf => absurd hf (hs _ hm (by simp)), fun _ h => (by cases h), fun h => (by cases h)⟩
    · refine ⟨i1, i2, i3, i4, i5, fun hf => absurd hf (hs _ hm (by simp)), fun _ h => (by cases h), fun h => (by cases h)⟩
  · rename_i hm
    cases h
    exact ⟨i1, i2, i3, i4, i5, fun hf => absurd hf (hs _ hm (by simp)), fun _ h => (by cases h), fun h => (by cases h)⟩
  · cases h

theorem dmn_inv {main : List Eff} {ok : Bool} {s s' : Sys} (i : Inv main s) (h : dmnStep main ok s = some s') : Inv main s' := by
  obtain ⟨i1, i2, i3, i4, i5, i6, i7, i8⟩ := i
  have hy : s.dmn ≠ .none → young s.mid = true → False := fun hn hm => hn (i8 hm)
  unfold dmnStep at h
  split at h
  · cases h
  · rename_i hd
    have h0 := i2 (.inr hd)
    cases h
    refine ⟨i1, ?_, ?_, i4, i5, i6, i7, fun hm => (hy (by rw [hd]; simp) hm).elim⟩ <;> dsimp only
    · intro _; exact h0
    · intro todo p h
      split at h
      · cases h
        rw [h0]
        simp
      · cases h
  · cases h
  · rename_i l p hd
    obtain ⟨h1, h2, h3⟩ := i3 _ _ hd
    cases h
    split
    · rename_i hp
      refine ⟨⟨l, by rw [← h1]; simp⟩, fun h => (by rcases h with h | h <;> cases h), ?_, fun _ => by simp, fun _ => by simp, i6, i7, fun hm => (hy (by rw [hd]; simp) hm).elim⟩
      intro todo q h
      cases h
      refine ⟨by rw [← h1]; simp, by simp, ?_⟩
      intro n hn
      rcases List.mem_append.mp hn with h | h
      · exact h3 n h
      · simp at h
    · exact ⟨i1, fun h => (by rcases h with h | h <;> cases h), fun _ _ h => (by cases h), i4, i5, i6, i7, fun hm => (hy (by rw [hd]; simp) hm).elim⟩
  · rename_i n l p hd
    obtain ⟨h1, h2, h3⟩ := i3 _ _ hd
    cases h
    exact ⟨⟨l, by rw [← h1]; simp⟩, fun h => (by rcases h with h | h <;> cases h), fun _ _ h => (by cases h), fun h => List.mem_append_left _ (i4 h),
      fun h => List.mem_append_left _ (i5 h), i6, i7, fun hm => (hy (by rw [hd]; simp) hm).elim⟩
  · rename_i e l p hne hnx hd
    obtain ⟨h1, h2, h3⟩ := i3 _ _ hd
    cases h
    refine ⟨⟨l, by rw [← h1]; simp⟩, fun h => (by rcases h with h | h <;> cases h), ?_, fun h => List.mem_append_left _ (i4 h),
      fun h => List.mem_append_left _ (i5 h), i6, i7, fun hm => (hy (by rw [hd]; simp) hm).elim⟩
    intro todo q h
    cases h
    refine ⟨by rw [← h1]; simp, ?_, ?_⟩
    · rw [h2, List.mem_append, List.mem_singleton]
      constructor
      · rintro h0 (h | h)
        · exact h0 h
        · exact hne h.symm
      · intro h0 h
        exact h0 (.inl h)
    · intro n hn
      rcases List.mem_append.mp hn with h | h
      · exact h3 n h
      · exact hnx n (List.mem_singleton.mp h).symm
  · cases h

theorem step_inv {main : List Eff} {ign : Bool} {s s' : Sys} {e : Ev} (i : Inv main s) (h : step main ign s e = some s') : Inv main s' := by
  cases e with
  | fg ok => exact fg_inv i h
  | mid ok => exact mid_inv i h
  | dmn ok => exact dmn_inv i h
  | killFg =>
    obtain ⟨i1, i2, i3, i4, i5, i6, i7, i8⟩ := i
    unfold step at h
    dsimp only at h
    split at h
    · cases h
    · cases h
      exact ⟨i1, i2, i3, i4, fun h => (by cases h), fun h => (by cases h), fun h => (by rcases h with h | h <;> cases h), i8⟩
  | killMid =>
    obtain ⟨i1, i2, i3, i4, i5, i6, i7, i8⟩ := i
    unfold step at h
    dsimp only at h
    split at h
    · cases h
    · cases h
    · rename_i hn _
      cases h
      exact ⟨i1, i2, i3, i4, i5, fun hf => absurd (i6 hf) (fun h => hn h), fun _ h => (by cases h), fun h => (by cases h)⟩
  | killDmn =>
    obtain ⟨i1, i2, i3, i4, i5, i6, i7, i8⟩ := i
    unfold step at h
    dsimp only at h
    split at h
    · cases h
    · cases h
    · rename_i hn _
      cases h
      exact ⟨i1, fun h => (by rcases h with h | h <;> cases h), fun _ _ h => (by cases h), i4, i5, i6, i7, fun hm => absurd (i8 hm) (fun h => hn h)⟩

theorem run_inv {main : List Eff} {ign : Bool} : ∀ {l : List Ev} {s s' : Sys}, Inv main s → run main ign s l = some s' → Inv main s'
  | [], s, s', i, h => by cases h; exact i
  | e :: l, s, s', i, h => by
    unfold run at h
    cases hs : step main ign s e with
    | none => rw [hs] at h; cases h
    | some s1 => rw [hs] at h; exact run_inv (step_inv i hs) h

/-! ### Every run is bounded -/

def fgSize (main : List Eff) : Fg → Nat
  | .exit _ => 0
  | .read => 1
  | .wait => 2
  | .close => 3
  | .fork => main.length + 11

def midSize (main : List Eff) : Mid → Nat
  | .none | .exit _ => 0
  | .leave => 1
  | .fork => main.length + 4
  | .sighup => main.length + 5
  | .setsid => main.length + 6
  | .close => main.length + 7

def dmnSize (main : List Eff) : Dmn → Nat
  | .none | .exit _ => 0
  | .run l _ => l.length + 1
  | .reopen => main.length + 2

def size (main : List Eff) (s : Sys) : Nat := fgSize main s.fg + midSize main s.mid + dmnSize main s.dmn

theorem step_size {main : List Eff} {ign : Bool} {s s' : Sys} {e : Ev} (i : Inv main s) (h : step main ign s e = some s') : size main s' < size main s := by
  have i6 := i.start
  have i8 := i.early
  obtain ⟨fg, mid, dmn, b, d⟩ := s
  cases e with
  | fg ok =>
    simp only [step, fgStep] at h
    cases fg <;> dsimp only at h i6 i8
    · cases h
      rw [i6 rfl]
      split <;> simp only [size, fgSize, midSize] <;> omega
    · cases h; simp only [size, fgSize]; omega
    · split at h
      · rename_i n
        cases h
        cases ign <;> by_cases hn : n = 0 <;> simp [size, fgSize, hn]
      · cases h
    · split at h
      · cases h; simp only [size, fgSize]; omega
      · split at h
        · cases h; simp only [size, fgSize]; omega
        · cases h
    · cases h
  | mid ok =>
    simp only [step, midStep] at h
    cases mid <;> dsimp only at h i6 i8
    · cases h
    · cases h; simp only [size, midSize]; omega
    · cases h; cases ok <;> simp [size, midSize] <;> omega
    · cases h; cases ok <;> simp [size, midSize] <;> omega
    · have hd : dmn = .none := i8 rfl
      subst hd
      cases h; split <;> simp only [size, midSize, dmnSize] <;> omega
    · cases h; simp only [size, midSize]; omega
    · cases h
  | dmn ok =>
    simp only [step, dmnStep] at h
    split at h
    · cases h
    · cases h; cases ok <;> simp [size, dmnSize]
    · cases h
    · cases h; split <;> simp only [size, dmnSize, List.length_cons] <;> omega
    · cases h; simp only [size, dmnSize, List.length_cons]; omega
    · cases h; simp only [size, dmnSize, List.length_cons]; omega
    · cases h
  | killFg =>
    simp only [step] at h
    cases fg <;> cases h <;> simp only [size, fgSize] <;> omega
  | killMid =>
    simp only [step] at h
    cases mid <;> cases h <;> simp only [size, midSize] <;> omega
  | killDmn =>
    simp only [step] at h
    cases dmn <;> cases h <;> simp only [size, dmnSize] <;> omega

theorem run_size {main : List Eff} {ign : Bool} : ∀ {l : List Ev} {s s' : Sys}, Inv main s → run main ign s l = some s' → l.length + size main s' ≤ size main s
  | [], s, s', i, h => by cases h; simp
  | e :: l, s, s', i, h => by
    unfold run at h
    cases hs : step main ign s e with
    | none => rw [hs] at h; cases h
    | some s1 =>
      rw [hs] at h
      have h1 := step_size i hs
      have h2 := run_size (step_inv i hs) h
      simp only [List.length_cons]
      omega

/-- Where nothing goes on, the first process has ended. -/
theorem stuck {main : List Eff} {ign : Bool} {s : Sys} (i : Inv main s) (ht : Tells main) (h1 : fgStep ign true s = none) (h2 : midStep true s = none) (h3 : dmnStep main true s = none) :
    ∃ n, s.fg = .exit n := by
  have i3 := i.split
  have i7 := i.child
  obtain ⟨fg, mid, dmn, b, d⟩ := s
  have hm : mid = .none ∨ ∃ n, mid = .exit n := by
    cases mid <;> simp [midStep] at h2 ⊢
  cases fg with
  | fork => cases h1
  | close => cases h1
  | wait =>
    rcases hm with rfl | ⟨n, rfl⟩
    · exact absurd rfl (i7 (.inr rfl))
    · cases h1
  | read =>
    simp only [fgStep] at h1
    split at h1
    · cases h1
    · rw [if_pos] at h1
      · cases h1
      · refine ⟨rfl, by rcases hm with rfl | ⟨n, rfl⟩ <;> rfl, ?_⟩
        cases dmn with
        | none => rfl
        | exit n => rfl
        | reopen => cases h3
        | run todo p =>
          cases todo with
          | cons e l => cases e <;> cases h3
          | nil =>
            obtain ⟨j1, j2, j3⟩ := i3 [] p rfl
            rw [List.append_nil] at j1
            dsimp only at j1 j2 j3
            subst j1
            rcases ht with ht | ⟨n, ht⟩
            · show p = false
              cases p
              · rfl
              · exact absurd ht (j2.mp rfl)
            · exact absurd ht (j3 n)
  | exit n => exact ⟨n, rfl⟩

/-! ### Without interference -/

/-- What holds if the first two processes are left alone and SIGCHLD is not ignored. -/
structure Calm (s : Sys) : Prop where
  mid : ∀ n, s.mid = .exit n → n ≠ 0 → s.dmn = .none
  keeps : (∀ n, s.fg ≠ .exit n) → .ready ∈ s.did → 0 < s.bytes
  fails : ∀ n, s.fg = .exit n → n ≠ 0 → NoDaemon s ∧ .ready ∉ s.did ∧ (s.mid = .none ∨ ∃ k, s.mid = .exit k)
  reads : s.fg = .read → ∃ k, s.mid = .exit k

theorem init_calm : Calm Sys.init := ⟨fun _ h => (by cases h), fun _ h => (by simp [Sys.init] at h), fun _ h => (by cases h), fun h => by cases h⟩

theorem fg_calm {main : List Eff} {ok : Bool} {s s' : Sys} (i : Inv main s) (c : Calm s) (h : fgStep false ok s = some s') : Calm s' := by
  obtain ⟨c1, c2, c3, c4⟩ := c
  have i2 := i.fresh
  have i3 := i.split
  have i6 := i.start
  have i8 := i.early
  unfold fgStep at h
  split at h
  · rename_i hf
    have hm := i6 hf
    have hd := i8 (by rw [hm]; rfl)
    have h0 := i2 (.inl hd)
    cases h
    split
    · exact ⟨fun _ h => (by cases h), fun _ h => (by rw [h0] at h; cases h), fun _ h => (by cases h), fun h => by cases h⟩
    · refine ⟨c1, fun h => absurd rfl (h 42), fun _ _ _ => ⟨.inl hd, by rw [h0]; simp, .inl hm⟩, fun h => by cases h⟩
  · rename_i hf
    cases h
    exact ⟨c1, fun _ => c2 (by rw [hf]; simp), fun _ h => (by cases h), fun h => by cases h⟩
  · rename_i hf
    split at h
    · rename_i n hm
      cases h
      rw [if_neg (by simp)]
      split
      · rename_i hn
        have hd := c1 n hm hn
        refine ⟨c1, fun h => absurd rfl (h 42), fun _ _ _ => ⟨.inl hd, by rw [i2 (.inl hd)]; simp, .inr ⟨n, hm⟩⟩, fun h => by cases h⟩
      · exact ⟨c1, fun _ => c2 (by rw [hf]; simp), fun _ h => (by cases h), fun _ => ⟨n, hm⟩⟩
    · cases h
  · rename_i hf
    split at h
    · cases h
      exact ⟨c1, fun h => absurd rfl (h 0), fun n h hn => (by cases h; exact absurd rfl hn), fun h => by cases h⟩
    · rename_i hb
      split at h
      · rename_i hw
        cases h
        have hr : Eff.ready ∉ s.did := fun hr => hb (c2 (by rw [hf]; simp) hr)
        refine ⟨c1, fun h => absurd rfl (h 42), fun _ _ _ => ⟨?_, hr, .inr (c4 hf)⟩, fun h => by cases h⟩
        unfold NoDaemon
        dsimp only
        cases hd : s.dmn with
        | none => exact .inl rfl
        | exit n => exact .inr ⟨n, rfl⟩
        | reopen => rw [hd] at hw; cases hw.2.2
        | run todo p =>
          rw [hd] at hw
          have hp : p = false := hw.2.2
          have := (i3 _ _ hd).2.1.mpr hr
          rw [hp] at this
          cases this
      · cases h
  · cases h

theorem mid_calm {main : List Eff} {ok : Bool} {s s' : Sys} (i : Inv main s) (c : Calm s) (h : midStep ok s = some s') : Calm s' := by
  obtain ⟨c1, c2, c3, c4⟩ := c
  have i2 := i.fresh
  have i8 := i.early
  have live : ∀ m, s.mid = m → (m ≠ .none) → (∀ k, m ≠ .exit k) → (∀ n, s.fg = .exit n → n ≠ 0 → False) ∧ s.fg ≠ .read := by
    intro m hm h1 h2
    refine ⟨fun n hf hn => ?_, fun hf => ?_⟩
    · rcases (c3 n hf hn).2.2 with h | ⟨k, h⟩
      · exact h1 (by rw [← hm, h])
      · exact h2 k (by rw [← hm, h])
    · obtain ⟨k, h⟩ := c4 hf
      exact h2 k (by rw [← hm, h])
  unfold midStep at h
  split at h
  · cases h
  · rename_i hm
    obtain ⟨l1, l2⟩ := live _ hm (by simp) (by simp)
    cases h
    exact ⟨fun _ h => (by cases h), c2, fun n hf hn => (l1 n hf hn).elim, fun hf => absurd hf l2⟩
  · rename_i hm
    obtain ⟨l1, l2⟩ := live _ hm (by simp) (by simp)
    have hd := i8 (by rw [hm]; rfl)
    cases h
    exact ⟨fun _ _ _ => hd, c2, fun n hf hn => (l1 n hf hn).elim, fun hf => absurd hf l2⟩
  · rename_i hm
    obtain ⟨l1, l2⟩ := live _ hm (by simp) (by simp)
    have hd := i8 (by rw [hm]; rfl)
    cases h
    exact ⟨fun _ _ _ => hd, c2, fun n hf hn => (l1 n hf hn).elim, fun hf => absurd hf l2⟩
  · rename_i hm
    obtain ⟨l1, l2⟩ := live _ hm (by simp) (by simp)
    have hd := i8 (by rw [hm]; rfl)
    cases h
    split
    · exact ⟨fun _ h => (by cases h), c2, fun n hf hn => (l1 n hf hn).elim, fun hf => absurd hf l2⟩
    · exact ⟨fun _ _ _ => hd, c2, fun n hf hn => (l1 n hf hn).elim, fun hf => absurd hf l2⟩
  · rename_i hm
    obtain ⟨l1, l2⟩ := live _ hm (by simp) (by simp)
    cases h
    exact ⟨fun n h hn => (by cases h; exact absurd rfl hn), c2, fun n hf hn => (l1 n hf hn).elim, fun hf => absurd hf l2⟩
  · cases h

theorem dmn_calm {main : List Eff} {ok : Bool} {s s' : Sys} (c : Calm s) (h : dmnStep main ok s = some s') : Calm s' := by
  obtain ⟨c1, c2, c3, c4⟩ := c
  have live : s.dmn ≠ .none → (∀ k, s.dmn ≠ .exit k) → (∀ n, s.mid = .exit n → n ≠ 0 → False) ∧ (∀ n, s.fg = .exit n → n ≠ 0 → False) := by
    intro h1 h2
    refine ⟨fun n hm hn => h1 (c1 n hm hn), fun n hf hn => ?_⟩
    rcases (c3 n hf hn).1 with h | ⟨k, h⟩
    · exact h1 h
    · exact h2 k h
  unfold dmnStep at h
  split at h
  · cases h
  · rename_i hd
    obtain ⟨l1, l2⟩ := live (by rw [hd]; simp) (by rw [hd]; simp)
    cases h
    exact ⟨fun n h hn => (l1 n h hn).elim, c2, fun n hf hn => (l2 n hf hn).elim, c4⟩
  · cases h
  · rename_i hd
    obtain ⟨l1, l2⟩ := live (by rw [hd]; simp) (by rw [hd]; simp)
    cases h
    split
    · exact ⟨fun n h hn => (l1 n h hn).elim, fun _ _ => Nat.succ_pos _, fun n hf hn => (l2 n hf hn).elim, c4⟩
    · exact ⟨fun n h hn => (l1 n h hn).elim, c2, fun n hf hn => (l2 n hf hn).elim, c4⟩
  · rename_i hd
    obtain ⟨l1, l2⟩ := live (by rw [hd]; simp) (by rw [hd]; simp)
    cases h
    refine ⟨fun n h hn => (l1 n h hn).elim, fun hf hr => c2 hf ?_, fun n hf hn => (l2 n hf hn).elim, c4⟩
    simpa using hr
  · rename_i e l p hne hnx hd
    obtain ⟨l1, l2⟩ := live (by rw [hd]; simp) (by rw [hd]; simp)
    cases h
    refine ⟨fun n h hn => (l1 n h hn).elim, fun hf hr => c2 hf ?_, fun n hf hn => (l2 n hf hn).elim, c4⟩
    rcases List.mem_append.mp hr with h | h
    · exact h
    · exact absurd (List.mem_singleton.mp h).symm hne
  · cases h

theorem run_calm {main : List Eff} : ∀ {l : List Ev} {s s' : Sys}, Inv main s → Calm s → Left l → run main false s l = some s' → Calm s'
  | [], s, s', _, c, _, h => by cases h; exact c
  | e :: l, s, s', i, c, hl, h => by
    unfold run at h
    cases hs : step main false s e with
    | none => rw [hs] at h; cases h
    | some s1 =>
      rw [hs] at h
      refine run_calm (step_inv i hs) ?_ ⟨fun h => hl.1 (by simp [h]), fun h => hl.2 (by simp [h])⟩ h
      cases e with
      | fg ok => exact fg_calm i c hs
      | mid ok => exact mid_calm i c hs
      | dmn ok => exact dmn_calm c hs
      | killFg => exact absurd (by simp) hl.1
      | killMid => exact absurd (by simp) hl.2
      | killDmn =>
        obtain ⟨c1, c2, c3, c4⟩ := c
        simp only [step] at hs
        split at hs
        · cases hs
        · cases hs
        · rename_i hn hx
          cases hs
          exact ⟨fun n hm h0 => absurd (c1 n hm h0) hn, c2, fun n hf h0 => ⟨.inr ⟨_, rfl⟩, (c3 n hf h0).2⟩, c4⟩

/-! ### Without the first process -/

theorem orphan_step {main : List Eff} {ign : Bool} {s s' : Sys} {e : Ev} {n : Nat} (i : Inv main s) (hf : s.fg = .exit n) (hr : .ready ∉ s.did)
    (h : step main ign s e = some s') : s'.fg = .exit n ∧ .ready ∉ s'.did := by
  have i8 := i.early
  cases e with
  | fg ok => simp only [step, fgStep, hf] at h; cases h
  | killFg => simp only [step, hf] at h; cases h
  | mid ok =>
    simp only [step, midStep] at h
    split at h
    · cases h
    · cases h; exact ⟨hf, hr⟩
    · cases h; exact ⟨hf, hr⟩
    · cases h; exact ⟨hf, hr⟩
    · cases h; split <;> exact ⟨hf, hr⟩
    · cases h; exact ⟨hf, hr⟩
    · cases h
  | killMid =>
    simp only [step] at h
    split at h
    · cases h
    · cases h
    · cases h; exact ⟨hf, hr⟩
  | killDmn =>
    simp only [step] at h
    split at h
    · cases h
    · cases h
    · cases h; exact ⟨hf, hr⟩
  | dmn ok =>
    simp only [step, dmnStep] at h
    split at h
    · cases h
    · cases h; exact ⟨hf, hr⟩
    · cases h
    · rename_i hd
      rw [if_neg] at h
      · cases h; exact ⟨hf, hr⟩
      · rintro ⟨_, h0 | h0⟩
        · rw [hf] at h0; cases h0
        · have : s.mid = .close := by
            cases hm : s.mid <;> rw [hm] at h0 <;> first | rfl | cases h0
          have := i8 (by rw [this]; rfl)
          rw [hd] at this
          cases this
    · cases h; exact ⟨hf, by simpa using hr⟩
    · rename_i hne _ _
      cases h
      refine ⟨hf, fun h => ?_⟩
      rcases List.mem_append.mp h with h | h
      · exact hr h
      · exact hne (List.mem_singleton.mp h).symm
    · cases h

theorem orphan_run {main : List Eff} {ign : Bool} {n : Nat} : ∀ {l : List Ev} {s s' : Sys}, Inv main s → s.fg = .exit n → .ready ∉ s.did →
    run main ign s l = some s' → .ready ∉ s'.did
  | [], s, s', _, _, hr, h => by cases h; exact hr
  | e :: l, s, s', i, hf, hr, h => by
    unfold run at h
    cases hs : step main ign s e with
    | none => rw [hs] at h; cases h
    | some s1 =>
      rw [hs] at h
      obtain ⟨h1, h2⟩ := orphan_step i hf hr hs
      exact orphan_run (step_inv i hs) h1 h2 h

/-! ### The start tells -/

theorem bind_tells {α β} {x : Take.Boot α} {f : α → Take.Boot β} (hx : x.2 = none → ∃ n, Eff.exit n ∈ x.1) (hf : ∀ a, Tells (f a).1) : Tells (Take.Boot.bind x f).1 := by
  unfold Take.Boot.bind
  split
  · rename_i h
    exact .inr (hx h)
  · rename_i a h
    rcases hf a with h1 | ⟨n, h1⟩
    · exact .inl (List.mem_append_right _ h1)
    · exact .inr ⟨n, List.mem_append_right _ h1⟩

def Dies {α} (x : Take.Boot α) : Prop := x.2 = none → ∃ n, Eff.exit n ∈ x.1

theorem dies_bind {α β} {x : Take.Boot α} {f : α → Take.Boot β} (hx : Dies x) (hf : ∀ a, Dies (f a)) : Dies (Take.Boot.bind x f) := by
  unfold Take.Boot.bind Dies
  split
  · rename_i h
    exact fun _ => hx h
  · rename_i a h
    intro h0
    obtain ⟨n, h1⟩ := hf a h0
    exact ⟨n, List.mem_append_right _ h1⟩

theorem dies_die {α} (n : Nat) : Dies (Take.die n : Take.Boot α) := fun _ => ⟨n, by simp [Take.die]⟩
theorem dies_some {α} (l : List Eff) (a : α) : Dies ((l, some a) : Take.Boot α) := fun h => (by cases h)
theorem dies_pure {α} (a : α) : Dies (Take.Boot.pure a) := dies_some _ _
theorem dies_part (ok : Bool) (e : List Eff) : Dies (Take.part ok e) := by
  cases ok
  · exact dies_die 42
  · exact dies_some _ _

theorem dies_sockets (e : Take.Env) : Dies (Take.sockets e) := dies_bind (dies_some _ _) fun _ => dies_bind (dies_part _ _) fun _ => dies_part _ _

theorem dies_first (e : Take.Env) : Dies (Take.first e) := by
  unfold Take.first
  split
  · exact dies_die _
  · exact dies_some _ _
  · exact dies_bind (dies_sockets e) fun _ => dies_pure _

theorem dies_connect (e : Take.Env) : Dies (Take.connect e) := by
  unfold Take.connect
  split
  · exact dies_die _
  · rename_i c hc
    generalize Ctl.txn c _ = y
    obtain ⟨r, c'⟩ := y
    cases r
    · exact dies_some _ _
    all_goals exact dies_bind (dies_some _ _) fun _ => dies_die _

theorem dies_tak1 (e : Take.Env) (i c) : Dies (Take.tak1 e i c) := by
  unfold Take.tak1
  split
  · generalize Ctl.txn c _ = y
    obtain ⟨r, c'⟩ := y
    cases r
    · exact dies_some _ _
    all_goals exact dies_bind (dies_some _ _) fun _ => dies_die _
  · exact dies_pure _

theorem dies_tak2 (e : Take.Env) (i c) : Dies (Take.tak2 e i c) := by
  unfold Take.tak2
  split
  · split
    · exact dies_bind (dies_some _ _) fun _ => dies_bind (dies_part _ _) fun _ => dies_pure _
    · exact dies_bind (dies_some _ _) fun _ => dies_die _
  · exact dies_pure _

theorem dies_join (e : Take.Env) (m : Bool) : Dies (Take.join e m) := by
  unfold Take.join
  split
  · exact dies_pure _
  · split
    · exact dies_die _
    · split
      · exact dies_die _
      · exact dies_bind (dies_connect e) fun _ => dies_bind (dies_tak1 e _ _) fun _ => dies_pure _

theorem dies_challenge (e : Take.Env) (o) : Dies (Take.challenge e o) := by
  unfold Take.challenge
  split
  · exact dies_pure _
  · exact dies_bind (dies_tak2 e _ _) fun _ => dies_pure _

theorem dies_second (e : Take.Env) (c) : Dies (Take.second e c) := by
  unfold Take.second
  split
  · exact dies_die _
  · exact dies_bind (dies_sockets e) fun _ => dies_pure _
  · split
    · refine dies_bind (dies_some _ _) fun _ => ?_
      split
      · exact dies_die _
      · split
        · exact dies_bind (dies_some _ _) fun _ => dies_bind (dies_part _ _) fun _ => dies_pure _
        · exact dies_die _
    · exact dies_bind (dies_some _ _) fun _ => dies_die _

theorem dies_replace (e : Take.Env) (o) : Dies (Take.replaceOld e o) := by
  unfold Take.replaceOld
  split
  · exact dies_pure _
  · exact dies_second e _

theorem finish_tells (e : Take.Env) (c ts) : Tells (Take.finish e c ts).1 := by
  unfold Take.finish
  refine bind_tells (dies_part _ _) fun _ => ?_
  cases e.starts
  · right
    exact ⟨42, by simp [Take.Boot.bind, Take.part, Take.die]⟩
  · left
    simp [Take.Boot.bind, Take.part]

theorem main_tells' (e : Take.Env) : Tells (Take.main e).1 := by
  unfold Take.main
  refine bind_tells (by split; exact dies_die _; exact dies_pure _) fun _ => bind_tells (dies_part _ _) fun _ => ?_
  split
  · refine bind_tells (dies_part _ _) fun _ => bind_tells (dies_part _ _) fun _ => .inr ⟨0, by simp [Take.die]⟩
  · exact bind_tells (dies_first e) fun _ => bind_tells (dies_join e _) fun _ => bind_tells (dies_part _ _) fun _ => bind_tells (dies_part _ _) fun _ =>
      bind_tells (dies_part _ _) fun _ => bind_tells (dies_part _ _) fun _ => bind_tells (dies_challenge e _) fun _ => bind_tells (dies_part _ _) fun _ =>
      bind_tells (dies_replace e _) fun _ => finish_tells e _ _

end Gdnsd.Life
