/-
An invariant of a check of a connection.
-/
import Verif.Poll.HttpLemmas
namespace Gdnsd.Poll
open PollSpec

/-- How the state of a check belongs to what was seen of it. -/
inductive TInv : Tcp → List Act → Prop
  | waiting : TInv ⟨false, none, false, .off⟩ []
  | busy {fd tmo} : tmo ≠ .off → TInv ⟨true, some fd, true, tmo⟩ [.opened fd]

/-- What one event may do. -/
def TGood (rest : List Act) (e : Ev) (o : Outcome (Option (Tcp × List Act))) : Prop :=
  o ≠ .ub ∧ ∀ s' a, o = .ok (some (s', a)) → rounds [e] = left a + begun a ∧
    (TInv s' (rest ++ noSkips a) ∨ (∃ b, TcpCheck true (rest ++ noSkips a) b) ∧ TInv s' [])

theorem tgood_go {rest : List Act} {e : Ev} {s' : Tcp} {a : List Act} (hr : rounds [e] = left a + begun a) (h : TInv s' (rest ++ noSkips a)) : TGood rest e (.ok (some (s', a))) :=
  ⟨nofun, by intro s2 a2 e; cases e; exact ⟨hr, .inl h⟩⟩

theorem tgood_end {rest : List Act} {e : Ev} {s' : Tcp} {a : List Act} {b : Option Bool} (hr : rounds [e] = left a + begun a) (h : TcpCheck true (rest ++ noSkips a) b) (h2 : TInv s' []) :
    TGood rest e (.ok (some (s', a))) :=
  ⟨nofun, by intro s2 a2 e; cases e; exact ⟨hr, .inr ⟨⟨b, h⟩, h2⟩⟩⟩

theorem tgood_none {rest : List Act} {e : Ev} : TGood rest e (.ok none) := ⟨nofun, by intro s2 a2 e; cases e⟩

theorem tgood_step {s : Tcp} {rest : List Act} (h : TInv s rest) (e : Ev) : TGood rest e (s.step e) := by
  cases h with
  | waiting =>
    cases e with
    | interval c =>
      cases c with
      | noSocket => exact tgood_end rfl (.nothing rfl) .waiting
      | refused fd => exact tgood_end rfl (.failed (.inl rfl)) .waiting
      | now fd => exact tgood_end rfl .up .waiting
      | wait fd => exact tgood_go rfl (.busy (by simp))
    | expire => exact tgood_none
    | timeout => exact tgood_none
    | write err r => exact tgood_none
    | read r => exact tgood_none
  | @busy fd tmo ht =>
    cases e with
    | interval c => exact tgood_go rfl (.busy ht)
    | expire =>
      cases tmo with
      | off => exact absurd rfl ht
      | active => exact tgood_go rfl (.busy (by simp))
      | pending => exact tgood_none
    | timeout =>
      cases tmo with
      | off => exact absurd rfl ht
      | active => exact tgood_none
      | pending => exact tgood_end rfl (.failed (.inr rfl)) .waiting
    | write err r =>
      have : Tcp.step ⟨true, some fd, true, tmo⟩ (.write err r) = .ok (some (⟨false, none, false, .off⟩, if err = true then [.refused, .closed fd, .report false] else [.connected, .closed fd, .report true])) := by
        cases tmo with
        | off => exact absurd rfl ht
        | active => rfl
        | pending => rfl
      rw [this]
      cases err with
      | true => exact tgood_end rfl (.failed (.inl rfl)) .waiting
      | false => exact tgood_end rfl .up .waiting
    | read r => exact tgood_none

theorem trun_good : ∀ (es : List Ev) (s : Tcp) (acts : List Act) (checks : List (List Act × Option Bool)) (rest : List Act),
    noSkips acts = (checks.map (·.1)).flatten ++ rest → (∀ c ∈ checks, TcpCheck true c.1 c.2) → TInv s rest →
    s.run acts es ≠ .ub ∧ ∀ s' acts', s.run acts es = .ok (some (s', acts')) →
      rounds es + (left acts + begun acts) = left acts' + begun acts' ∧
      ∃ (checks' : List (List Act × Option Bool)) (rest' : List Act), noSkips acts' = (checks'.map (·.1)).flatten ++ rest' ∧ (∀ c ∈ checks', TcpCheck true c.1 c.2) ∧ TInv s' rest' := by
  intro es
  induction es with
  | nil =>
    intro s acts checks rest h1 h2 h3
    refine ⟨nofun, ?_⟩
    intro s' acts' he
    cases he
    exact ⟨by simp [rounds], checks, rest, h1, h2, h3⟩
  | cons e es ih =>
    intro s acts checks rest h1 h2 h3
    have hg := tgood_step h3 e
    unfold Tcp.run
    cases hs : s.step e with
    | ub => exact absurd hs hg.1
    | ok o =>
      cases o with
      | none => exact ⟨nofun, by intro s' a' he; cases he⟩
      | some p =>
        obtain ⟨s1, a⟩ := p
        obtain ⟨hr, hor⟩ := hg.2 s1 a hs
        have res : (Tcp.run s1 (acts ++ a) es ≠ .ub ∧ ∀ s' acts', Tcp.run s1 (acts ++ a) es = .ok (some (s', acts')) →
            rounds es + (left (acts ++ a) + begun (acts ++ a)) = left acts' + begun acts' ∧
            ∃ (checks' : List (List Act × Option Bool)) (rest' : List Act), noSkips acts' = (checks'.map (·.1)).flatten ++ rest' ∧ (∀ c ∈ checks', TcpCheck true c.1 c.2) ∧ TInv s' rest') := by
          rcases hor with hi | ⟨⟨b, hc⟩, hi⟩
          · exact ih s1 (acts ++ a) checks (rest ++ noSkips a) (by rw [noSkips_append, h1, List.append_assoc]) h2 hi
          · refine ih s1 (acts ++ a) (checks ++ [(rest ++ noSkips a, b)]) [] (by rw [noSkips_append, h1]; simp) ?_ hi
            intro c hc'
            rcases List.mem_append.1 hc' with h | h
            · exact h2 c h
            · rw [List.mem_singleton.1 h]; exact hc
        refine ⟨res.1, ?_⟩
        intro s' acts' he
        obtain ⟨x, y⟩ := res.2 s' acts' he
        refine ⟨?_, y⟩
        rw [left_append, begun_append] at x
        have : rounds (e :: es) = rounds [e] + rounds es := by
          cases e <;> simp [rounds] <;> omega
        omega

theorem tchecks_plain : ∀ checks : List (List Act × Option Bool), (∀ c ∈ checks, TcpCheck true c.1 c.2) →
    reports (checks.map (·.1)).flatten = checks.filterMap (·.2) ∧ begun (checks.map (·.1)).flatten = checks.length := by
  intro checks
  induction checks with
  | nil => intro _; exact ⟨rfl, rfl⟩
  | cons c r ih =>
    intro h
    obtain ⟨a, b⟩ := ih fun x hx => h x (List.mem_cons_of_mem _ hx)
    obtain ⟨l, o⟩ := c
    have hc : TcpCheck true l o := h (l, o) (List.mem_cons_self ..)
    clear h
    have : reports l = o.toList ∧ begun l = 1 := by
      cases hc with
      | noSocket hx => cases hx
      | nothing => exact ⟨rfl, rfl⟩
      | failed hw => rcases hw with rfl | rfl <;> exact ⟨rfl, rfl⟩
      | up => exact ⟨rfl, rfl⟩
    simp only [List.map_cons, List.flatten_cons, reports_append, begun_append, a, b, this.1, this.2, List.length_cons]
    refine ⟨?_, by omega⟩
    cases o <;> simp

end Gdnsd.Poll
