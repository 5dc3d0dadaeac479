/-
C115: the command line. C116: the directories.
-/
import Verif.Args.Lemmas
open Gdnsd.Conf (str)
namespace Gdnsd.Args
open ArgsSpec

/-! ### C115 -/

theorem lower_iff (b c : UInt8) (h1 : 0x61 ≤ c) (h2 : c ≤ 0x7A) : lower b = c ↔ b = c ∨ b = c - 0x20 := by
  have hb := b.toNat_lt
  have hc := c.toNat_lt
  rw [UInt8.le_iff_toNat_le] at h1 h2
  have e61 : (0x61 : UInt8).toNat = 97 := rfl
  have e7a : (0x7A : UInt8).toNat = 122 := rfl
  have e41 : (0x41 : UInt8).toNat = 65 := rfl
  have e5a : (0x5A : UInt8).toNat = 90 := rfl
  have e20 : (0x20 : UInt8).toNat = 32 := rfl
  unfold lower
  split
  · rename_i h
    rw [UInt8.le_iff_toNat_le, UInt8.le_iff_toNat_le] at h
    simp only [← UInt8.toNat_inj, UInt8.toNat_add, UInt8.toNat_sub]
    omega
  · rename_i h
    rw [UInt8.le_iff_toNat_le, UInt8.le_iff_toNat_le] at h
    simp only [← UInt8.toNat_inj, UInt8.toNat_sub]
    omega

theorem spelled_iff : ∀ (n a : Bytes), (∀ c ∈ n, 0x61 ≤ c ∧ c ≤ 0x7A) → (a.map lower = n ↔ Spelled a n)
  | [], [], _ => ⟨fun _ => .nil, fun _ => rfl⟩
  | [], x :: a, _ => ⟨fun h => (by cases h), fun h => (by cases h)⟩
  | c :: n, [], _ => ⟨fun h => (by cases h), fun h => (by cases h)⟩
  | c :: n, x :: a, h => by
    have ih := spelled_iff n a fun d hd => h d (List.mem_cons_of_mem _ hd)
    have hl := lower_iff x c (h c (by simp)).1 (h c (by simp)).2
    rw [List.map_cons, List.cons.injEq, hl, ih]
    constructor
    · rintro ⟨rfl | rfl, h2⟩
      · exact .small _ h2
      · exact .capital _ h2
    · intro h2
      cases h2 with
      | small _ h3 => exact ⟨.inl rfl, h3⟩
      | capital _ h3 => exact ⟨.inr rfl, h3⟩

theorem named_iff {a : Bytes} {act : Action} : Named a act ↔ a.map lower = str (match act with | .check => "checkconf" | .start => "start" | .daemonize => "daemonize") := by
  unfold Named
  refine (spelled_iff _ _ ?_).symm
  cases act <;> decide

theorem action_iff {a : Bytes} {act : Action} : action a = some act ↔ Named a act := by
  have h1 : str "checkconf" ≠ str "start" := by decide
  have h2 : str "checkconf" ≠ str "daemonize" := by decide
  have h3 : str "start" ≠ str "daemonize" := by decide
  rw [named_iff]
  unfold action
  constructor
  · intro h
    split at h
    · cases h; assumption
    · split at h
      · cases h; assumption
      · split at h
        · cases h; assumption
        · cases h
  · intro h
    cases act <;> dsimp only at h
    · rw [if_pos h]
    · rw [if_neg (by rw [h]; exact Ne.symm h1), if_pos h]
    · rw [if_neg (by rw [h]; exact Ne.symm h2), if_neg (by rw [h]; exact Ne.symm h3), if_pos h]

/-- A command line is accepted exactly if it consists of options, in whatever order and grouping, and one word that names an action, and does not have both
`-R` and `-i`; and the options are those that it has. -/
theorem C115_exact {args : List Bytes} {o : Opts} {act : Action} : parse args = some (o, act) ↔
    ∃ o' w, Means args o' [w] ∧ Named w act ∧ ¬ (o'.replace = true ∧ o'.idem = true) ∧ o = { o' with syslog := o'.syslog || decide (act = .daemonize) } := by
  constructor
  · intro h
    unfold parse at h
    cases hs : scan args Opts.init with
    | none => rw [hs] at h; cases h
    | some r =>
      obtain ⟨o', ws⟩ := r
      rw [hs, Option.bind_some] at h
      dsimp only at h
      split at h
      · rename_i a
        cases ha : action a with
        | none => rw [ha] at h; cases h
        | some x =>
          rw [ha, Option.bind_some] at h
          split at h
          · cases h
          · rename_i hn
            simp only [Option.some.injEq, Prod.mk.injEq] at h
            obtain ⟨h1, rfl⟩ := h
            refine ⟨o', a, scan_iff.mp hs, action_iff.mp ha, hn, ?_⟩
            rw [← h1]
            split <;> simp [*]
      · cases h
  · rintro ⟨o', w, h1, h2, h3, rfl⟩
    unfold parse
    rw [scan_iff.mpr h1, Option.bind_some]
    dsimp only
    rw [action_iff.mpr h2, Option.bind_some, if_neg h3]
    split <;> simp [*]

/-- Nothing but the options and the word matters: the same ones in another order or grouping give the same. -/
theorem C115_order {a b : List Item} {x w : Bytes} (ha : ∀ x ∈ a, x.Legal) (hb : ∀ x ∈ b, x.Legal) (hw : a.flatMap Item.words = [w]) (hx : b.flatMap Item.words = [x])
    (h : meaning a = meaning b) (h2 : ∀ act, Named w act ↔ Named x act) : parse (a.flatMap Item.render) = parse (b.flatMap Item.render) := by
  have h1 : scan (a.flatMap Item.render) Opts.init = some (meaning a, [w]) := scan_iff.mpr ⟨a, ha, rfl, .inl ⟨rfl, hw.symm⟩⟩
  have h3 : scan (b.flatMap Item.render) Opts.init = some (meaning b, [x]) := scan_iff.mpr ⟨b, hb, rfl, .inl ⟨rfl, hx.symm⟩⟩
  unfold parse
  rw [h1, h3, h]
  have h4 : action w = action x := Option.ext fun act => action_iff.trans ((h2 act).trans action_iff.symm)
  simp only [Option.bind_some, h4]

example : parse [str "-DS", str "Start", str "-c", str "/x"] = some (⟨some (str "/x"), true, false, true, false, false, (false, false, false)⟩, .start) := by decide +kernel
example : Named (str "DAEMONiZE") .daemonize := named_iff.mpr (by decide)
example : parse [str "-R", str "-i", str "start"] = none := by decide +kernel
example : parse [str "-c/x", str "--", str "daemonize"] = some (⟨some (str "/x"), false, true, false, false, false, (false, false, false)⟩, .daemonize) := by decide +kernel

/-- Options in two groupings. -/
example : meaning [.flags .D [.S], .apart [] [0x78], .word [0x73]] = meaning [.word [0x73], .joined [.S] 0x78 [], .flags .D []] := by decide

/-! ### C116 -/

/-- If a daemon goes on, the directory of the run is a directory that none but its owner can use, and who is not the superuser is that owner; the one of the state is a directory as well. -/
theorem C116_private_partial {uid : Nat} {mr ms : Bool} {run state run' state' : Node} (h : dirs uid true mr ms run state = (run', state', true)) :
    (∃ o, run' = .dir o 0o700 ∧ (uid ≠ 0 → o = uid)) ∧ ∃ o m, state' = .dir o m ∧ (state = .none → o = uid ∧ m = 0o755) ∧ (state ≠ .none → state' = state) := by
  unfold dirs at h
  rw [if_pos rfl] at h
  dsimp only at h
  split at h
  · rename_i hr
    simp only [Prod.mk.injEq] at h
    obtain ⟨h1, h2, h3⟩ := h
    constructor
    · rw [← h1]
      unfold ensure mkdir at hr ⊢
      cases run with
      | none => cases mr <;> simp at hr ⊢
      | dir o m =>
        simp only [if_pos, chmod] at hr ⊢
        by_cases hu : uid = 0 ∨ uid = o
        · simp only [hu, if_true] at hr ⊢
          exact ⟨o, rfl, fun h0 => (hu.resolve_left h0).symm⟩
        · simp [hu] at hr
      | other o m =>
        simp only [if_pos, chmod] at hr ⊢
        by_cases hu : uid = 0 ∨ uid = o
        · simp [hu] at hr
        · simp [hu] at hr
    · rw [← h2]
      unfold ensure mkdir at h3 ⊢
      cases state with
      | none => cases ms <;> simp at h3 ⊢
      | dir o m => exact ⟨o, m, rfl, fun h => (by cases h), fun _ => rfl⟩
      | other o m => simp at h3
  · simp at h

/-- It goes on exactly if both are there, and the first is its own, or can be made. A check of the configuration changes nothing. -/
theorem C116_goes {uid : Nat} {mr ms : Bool} {run state : Node} :
    ((dirs uid true mr ms run state).2.2 = true ↔ ((run = .none ∧ mr = true) ∨ ∃ o m, run = .dir o m ∧ (uid = 0 ∨ uid = o)) ∧ ((state = .none ∧ ms = true) ∨ ∃ o m, state = .dir o m)) ∧
    dirs uid false mr ms run state = (run, state, true) := by
  refine ⟨?_, rfl⟩
  cases run with
  | none => cases mr <;> cases state <;> cases ms <;> simp [dirs, ensure, mkdir]
  | dir o m => by_cases hu : uid = 0 ∨ uid = o <;> cases state <;> cases ms <;> simp [dirs, ensure, mkdir, chmod, hu]
  | other o m => by_cases hu : uid = 0 ∨ uid = o <;> cases state <;> cases ms <;> simp [dirs, ensure, mkdir, chmod, hu]

/-- False of the code in general: the superuser goes on with a directory of another user, who can let anybody in at any time. -/
theorem C116_false_root {o m : Nat} {mr ms : Bool} {state : Node} (h : ∃ p q, state = .dir p q) : dirs 0 true mr ms (.dir o m) state = (.dir o 0o700, state, true) := by
  obtain ⟨p, q, rfl⟩ := h
  rfl

/-- False of the code in general: what is no directory has its mode changed before the start is given up. -/
theorem C116_false_touched {uid m : Nat} {mr ms : Bool} {state : Node} : dirs uid true mr ms (.other uid m) state = (.other uid 0o700, state, false) := by
  simp [dirs, ensure, mkdir, chmod]

/-- Paths: one that is absolute stands for itself, others are below the directory and the prefix. -/
theorem C116_paths (dir : Bytes) (inpath pfx : Option Bytes) :
    resolve dir inpath pfx = if (inpath.bind List.head?) = some 0x2F then inpath.getD [] else List.intercalate [0x2F] (dir :: (pfx.toList ++ inpath.toList)) := by
  unfold resolve
  split
  · simp
  · rename_i i p hne
    have : ¬ (some i).bind List.head? = some 0x2F := by
      cases i with
      | nil => simp
      | cons b i => intro h; simp at h; subst h; exact hne _ rfl
    rw [if_neg this]
    simp [List.intercalate, List.intersperse]
  · simp [List.intercalate, List.intersperse]
  · rename_i i hne
    have : ¬ (some i).bind List.head? = some 0x2F := by
      cases i with
      | nil => simp
      | cons b i => intro h; simp at h; subst h; exact hne _ rfl
    rw [if_neg this]
    simp [List.intercalate, List.intersperse]
  · simp [List.intercalate, List.intersperse]

example : dirs 5 true true true (.dir 5 0o755) .none = (.dir 5 0o700, .dir 5 0o755, true) := by decide
example : resolve (str "/etc/gdnsd") (some (str "x")) (some (str "geoip")) = str "/etc/gdnsd/geoip/x" := by decide

end Gdnsd.Args
