/-
The order of a start: rules for what holds after every part of it.
-/
import Verif.Take.Spec
import Verif.Ctl.Props
namespace Gdnsd.Take
open TakeSpec
open Css (msg msgKey msgV msgD)
open Ctl (Chan Info)

theorem bytes_append {p q} : bytes (p ++ q) = bytes p ++ bytes q := by simp [bytes]

/-- What has come with the requests `xs`. -/
def Each1 (p : List Eff) (xs : List Bytes) : Prop := ∀ m ∈ xs, m.length = 8 ∧ msgKey m ∈ ([73, 49, 50, 84, 88] : List UInt8) ∧ Due p m

/-- Descriptors of another daemon. -/
def Took (p : List Eff) : Prop := ∃ lk ct ts c, .took lk ct ts c ∈ p

/-- What holds after every part. -/
structure Safe (p : List Eff) : Prop where
  says : ∃ xs, bytes p <+: xs.flatten ∧ Each1 p xs ∧ (xs.map msgKey).Nodup
  unlink : .unlink ∈ p → .lock ∈ p
  serve : .serve ∈ p → Up p ∧ (.lock ∈ p ∨ Took p)
  took : Took p → Ready p ∧ .busy ∈ p
  talk : bytes p ≠ [] → .busy ∈ p

/-- Between two parts. -/
structure S (ks : List UInt8) (G : List Eff → Prop) (p : List Eff) : Prop where
  says : ∃ xs, bytes p = xs.flatten ∧ Each1 p xs ∧ (xs.map msgKey).Sublist ks
  unlink : .unlink ∈ p → .lock ∈ p
  serve : .serve ∉ p
  took : Took p → Ready p ∧ .busy ∈ p
  talk : bytes p ≠ [] → .busy ∈ p
  more : G p

def Mono (G : List Eff → Prop) : Prop := ∀ p q, G p → G (p ++ q)

theorem loaded_mono : Mono Loaded := fun p q h => ⟨by simp [h.1], by simp [h.2.1], by simp [h.2.2]⟩
theorem ready_mono : Mono Ready := fun p q h => ⟨loaded_mono p q h.1, by simp [h.2]⟩
theorem up_mono : Mono Up := fun p q h => ⟨ready_mono p q h.1, by simp [h.2.1], by obtain ⟨n, hn⟩ := h.2.2.1; exact ⟨n, by simp [hn]⟩, by simp [h.2.2.2.1], by simp [h.2.2.2.2]⟩
theorem due_mono {m} : Mono fun p => Due p m := fun p q h => ⟨fun h1 => loaded_mono p q (h.1 h1), fun h1 => ready_mono p q (h.2.1 h1), fun h1 => up_mono p q (h.2.2 h1)⟩
theorem took_mono : Mono Took := fun p q ⟨a, b, c, d, h⟩ => ⟨a, b, c, d, by simp [h]⟩
theorem mem_mono (e : Eff) : Mono fun p => e ∈ p := fun p q h => by simp only [List.mem_append]; exact Or.inl h
theorem and_mono {G H : List Eff → Prop} (h : Mono G) (h' : Mono H) : Mono fun p => G p ∧ H p := fun p q x => ⟨h p q x.1, h' p q x.2⟩
theorem or_mono {G H : List Eff → Prop} (h : Mono G) (h' : Mono H) : Mono fun p => G p ∨ H p := fun p q x => x.imp (h p q) (h' p q)
theorem true_mono : Mono fun _ => True := fun _ _ _ => trivial
theorem each_mono {xs} : Mono fun p => Each1 p xs := fun p q h m hm => ⟨(h m hm).1, (h m hm).2.1, due_mono p q (h m hm).2.2⟩

theorem S.safe {ks G p} (hk : ks.Nodup) (h : S ks G p) : Safe p := by
  obtain ⟨xs, h1, h2, h3⟩ := h.says
  exact ⟨⟨xs, by rw [h1]; exact List.prefix_refl _, h2, h3.nodup hk⟩, h.unlink, fun h0 => absurd h0 h.serve, h.took, h.talk⟩

/-- Effects that are of no concern. -/
def plainEff : Eff → Bool
  | .conf | .zones | .monitored | .challenges _ _ | .prerun | .lock | .busy | .listening | .bound _ | .threads | .ready | .exit _ => true
  | _ => false

theorem bytes_plain {q : List Eff} (h : ∀ e ∈ q, plainEff e = true) : bytes q = [] := by
  induction q with
  | nil => rfl
  | cons e q ih =>
    rw [show e :: q = [e] ++ q from rfl, bytes_append, ih fun x hx => h x (by simp [hx])]
    have := h e (by simp)
    cases e <;> simp [plainEff] at this <;> rfl

theorem took_append {p q} (h : ∀ e ∈ q, plainEff e = true) (ht : Took (p ++ q)) : Took p := by
  obtain ⟨a, b, c, d, h0⟩ := ht
  rcases List.mem_append.mp h0 with h0 | h0
  · exact ⟨a, b, c, d, h0⟩
  · exact absurd (h _ h0) (by simp [plainEff])

theorem S.plain {ks G p q} (h : S ks G p) (hq : ∀ e ∈ q, plainEff e = true) (hG : Mono G) : S ks (fun p => G p ∧ ∀ e ∈ q, e ∈ p) (p ++ q) := by
  obtain ⟨xs, h1, h2, h3⟩ := h.says
  refine ⟨⟨xs, by rw [bytes_append, bytes_plain hq, List.append_nil, h1], each_mono p q h2, h3⟩, ?_, ?_, ?_, ?_, hG p q h.more, fun e he => by simp [he]⟩
  · intro h0
    rcases List.mem_append.mp h0 with h0 | h0
    · exact mem_mono _ p q (h.unlink h0)
    · exact absurd (hq _ h0) (by simp [plainEff])
  · intro h0
    rcases List.mem_append.mp h0 with h0 | h0
    · exact h.serve h0
    · exact absurd (hq _ h0) (by simp [plainEff])
  · intro h0
    exact and_mono ready_mono (mem_mono .busy) p q (h.took (took_append hq h0))
  · rw [bytes_append, bytes_plain hq, List.append_nil]
    exact fun h0 => mem_mono _ p q (h.talk h0)

theorem Safe.plain {p q} (h : Safe p) (hq : ∀ e ∈ q, plainEff e = true) : Safe (p ++ q) := by
  obtain ⟨xs, h1, h2, h3⟩ := h.says
  refine ⟨⟨xs, by rw [bytes_append, bytes_plain hq, List.append_nil]; exact h1, each_mono p q h2, h3⟩, ?_, ?_, ?_, ?_⟩
  · intro h0
    rcases List.mem_append.mp h0 with h0 | h0
    · exact mem_mono _ p q (h.unlink h0)
    · exact absurd (hq _ h0) (by simp [plainEff])
  · intro h0
    rcases List.mem_append.mp h0 with h0 | h0
    · exact and_mono up_mono (or_mono (mem_mono .lock) took_mono) p q (h.serve h0)
    · exact absurd (hq _ h0) (by simp [plainEff])
  · intro h0
    exact and_mono ready_mono (mem_mono .busy) p q (h.took (took_append hq h0))
  · rw [bytes_append, bytes_plain hq, List.append_nil]
    exact fun h0 => mem_mono _ p q (h.talk h0)

/-- All along `x` it is safe, and `R` holds if it goes on. -/
def Tri {α} (P : List Eff → Prop) (x : Boot α) (R : α → List Eff → Prop) : Prop :=
  ∀ p, P p → (∀ q, q <+: x.1 → Safe (p ++ q)) ∧ ∀ a, x.2 = some a → R a (p ++ x.1)

theorem pre_append {α} {q a b : List α} (h : q <+: a ++ b) : q <+: a ∨ ∃ t, q = a ++ t ∧ t <+: b := by
  rcases Nat.le_total q.length a.length with hl | hl
  · exact Or.inl (List.prefix_of_prefix_length_le h (List.prefix_append a b) hl)
  · obtain ⟨t, rfl⟩ := List.prefix_of_prefix_length_le (List.prefix_append a b) h hl
    exact Or.inr ⟨t, rfl, (List.prefix_append_right_inj a).mp h⟩

theorem tri_bind {α β} {P : List Eff → Prop} {x : Boot α} {f : α → Boot β} {R : α → List Eff → Prop} {Q : β → List Eff → Prop}
    (h : Tri P x R) (h' : ∀ a, Tri (R a) (f a) Q) : Tri P (Boot.bind x f) Q := by
  intro p hp
  obtain ⟨h1, h2⟩ := h p hp
  unfold Boot.bind
  split
  · exact ⟨h1, by simp⟩
  · next a ha =>
    obtain ⟨h3, h4⟩ := h' a _ (h2 a ha)
    refine ⟨fun q hq => ?_, fun b hb => ?_⟩
    · rcases pre_append hq with hq | ⟨t, rfl, ht⟩
      · exact h1 q hq
      · rw [← List.append_assoc]; exact h3 t ht
    · rw [← List.append_assoc]; exact h4 b hb

theorem tri_pure {α} {ks G} {a : α} (hk : ks.Nodup) : Tri (S ks G) (Boot.pure a) (fun b p => b = a ∧ S ks G p) := by
  intro p hp
  refine ⟨fun q hq => ?_, fun b hb => ?_⟩
  · rw [List.prefix_nil.mp hq, List.append_nil]; exact hp.safe hk
  · simp only [Boot.pure, Option.some.injEq] at hb
    exact ⟨hb.symm, by simpa [Boot.pure] using hp⟩

theorem tri_die {α} {code} {R : α → List Eff → Prop} : Tri Safe (die code) R := by
  intro p hp
  refine ⟨fun q hq => ?_, by simp [die]⟩
  refine hp.plain fun e he => ?_
  have := hq.subset he
  simp only [die, List.mem_singleton] at this
  rw [this]; rfl

theorem tri_die' {α} {ks G code} {R : α → List Eff → Prop} (hk : ks.Nodup) : Tri (S ks G) (die code) R := fun p hp => tri_die p (hp.safe hk)

theorem tri_eff {ks G} {e : List Eff} (hk : ks.Nodup) (hG : Mono G) (he : ∀ x ∈ e, plainEff x = true) {α} {a : α} :
    Tri (S ks G) ((e, some a) : Boot α) (fun b p => b = a ∧ S ks (fun p => G p ∧ ∀ x ∈ e, x ∈ p) p) := by
  intro p hp
  refine ⟨fun q hq => (hp.safe hk).plain fun x hx => he x (hq.subset hx), fun b hb => ?_⟩
  simp only [Option.some.injEq] at hb
  exact ⟨hb.symm, hp.plain he hG⟩

theorem tri_part {ks G} {e : List Eff} {ok} (hk : ks.Nodup) (hG : Mono G) (he : ∀ x ∈ e, plainEff x = true) :
    Tri (S ks G) (part ok e) (fun _ => S ks (fun p => G p ∧ ∀ x ∈ e, x ∈ p)) := by
  cases ok with
  | true => exact fun p hp => ⟨(tri_eff (a := ()) hk hG he p hp).1, fun b hb => ((tri_eff (a := ()) hk hG he p hp).2 b hb).2⟩
  | false => exact tri_die' hk

theorem tri_weak {α} {P P' : List Eff → Prop} {x : Boot α} {R R' : α → List Eff → Prop} (h : Tri P x R) (hp : ∀ p, P' p → P p) (hr : ∀ a p, R a p → R' a p) : Tri P' x R' :=
  fun p h0 => ⟨(h p (hp p h0)).1, fun a ha => hr a _ ((h p (hp p h0)).2 a ha)⟩

theorem S.weak {ks G H p} (h : S ks G p) (hg : G p → H p) : S ks H p := ⟨h.says, h.unlink, h.serve, h.took, h.talk, hg h.more⟩

theorem S.keys {ks ks' G p} (h : S ks G p) (hs : ks.Sublist ks') : S ks' G p := by
  obtain ⟨xs, h1, h2, h3⟩ := h.says
  exact ⟨⟨xs, h1, h2, h3.trans hs⟩, h.unlink, h.serve, h.took, h.talk, h.more⟩

/-! ### Requests -/

theorem said_cases {c c' : Chan} {x m} (h : c'.out = c.out ++ x) (_ : x <+: m) : said c c' = if x = [] then [] else [.say x] := by
  unfold said
  rw [h, List.drop_left]

theorem mem_said {c c' : Chan} {e} (h : e ∈ said c c') : ∃ x, e = .say x := by
  unfold said at h
  split at h
  · simp at h
  · exact ⟨_, List.mem_singleton.mp h⟩

theorem bytes_said {c c' : Chan} {x} (h : c'.out = c.out ++ x) : bytes (said c c') = x := by
  unfold said
  rw [h, List.drop_left]
  split
  · next h0 => rw [h0]; rfl
  · simp [bytes]

theorem prefix_said {c c' : Chan} {q} (h : q <+: said c c') : q = [] ∨ q = said c c' := by
  unfold said at h ⊢
  split at h
  · next h0 => rw [if_pos h0]; exact Or.inl (List.prefix_nil.mp h)
  · next h0 =>
    rw [if_neg h0]
    rcases List.prefix_cons_iff.mp h with h | ⟨t, rfl, ht⟩
    · exact Or.inl h
    · rw [List.prefix_nil.mp ht]; exact Or.inr rfl

theorem not_said {c c' : Chan} {e : Eff} {p : List Eff} (h : e ∈ p ++ said c c') (he : ∀ x, e ≠ .say x) : e ∈ p := by
  rcases List.mem_append.mp h with h | h
  · exact h
  · obtain ⟨x, hx⟩ := mem_said h; exact absurd hx (he x)

theorem took_said {c c' : Chan} {p : List Eff} (h : Took (p ++ said c c')) : Took p := by
  obtain ⟨a, b, t, d, h0⟩ := h
  exact ⟨a, b, t, d, not_said h0 (by simp)⟩

/-- A part of a request is sent. -/
theorem S.say {ks G p} {c c' : Chan} {x m : Bytes} {k : UInt8} (h : S ks G p) (hx : c'.out = c.out ++ x) (hp : x <+: m) (h8 : m.length = 8) (hm : msgKey m = k)
    (hk : k ∈ ([73, 49, 50, 84, 88] : List UInt8)) (hd : G p → Due p m) (hb : G p → .busy ∈ p) (hks : (ks ++ [k]).Nodup) : Safe (p ++ said c c') := by
  obtain ⟨xs, h1, h2, h3⟩ := h.says
  refine ⟨⟨xs ++ [m], ?_, ?_, ?_⟩, fun h0 => mem_mono _ _ _ (h.unlink (not_said h0 (by simp))), fun h0 => absurd (not_said h0 (by simp)) h.serve, fun h0 => and_mono ready_mono (mem_mono .busy) _ _ (h.took (took_said h0)),
    fun _ => mem_mono _ _ _ (hb h.more)⟩
  · rw [bytes_append, bytes_said hx, h1, List.flatten_append]
    obtain ⟨y, rfl⟩ := hp
    exact ⟨y, by simp⟩
  · intro m' hm'
    rcases List.mem_append.mp hm' with hm' | hm'
    · exact each_mono p _ h2 m' hm'
    · rw [List.mem_singleton.mp hm']
      exact ⟨h8, by rw [hm]; exact hk, due_mono p _ (hd h.more)⟩
  · rw [List.map_append]
    refine (List.Sublist.append h3 (List.Sublist.refl _)).nodup ?_
    simpa [hm] using hks

/-- A request is sent. -/
theorem S.sayAll {ks G p} {c c' : Chan} {m : Bytes} {k : UInt8} (h : S ks G p) (hx : c'.out = c.out ++ m) (h8 : m.length = 8) (hm : msgKey m = k)
    (hk : k ∈ ([73, 49, 50, 84, 88] : List UInt8)) (hd : G p → Due p m) (hb : G p → .busy ∈ p) (hG : Mono G) : S (ks ++ [k]) G (p ++ said c c') := by
  obtain ⟨xs, h1, h2, h3⟩ := h.says
  refine ⟨⟨xs ++ [m], ?_, ?_, ?_⟩, fun h0 => mem_mono _ _ _ (h.unlink (not_said h0 (by simp))), fun h0 => absurd (not_said h0 (by simp)) h.serve, fun h0 => and_mono ready_mono (mem_mono .busy) _ _ (h.took (took_said h0)),
    fun _ => mem_mono _ _ _ (hb h.more), hG _ _ h.more⟩
  · rw [bytes_append, bytes_said hx, h1, List.flatten_append]
    simp
  · intro m' hm'
    rcases List.mem_append.mp hm' with hm' | hm'
    · exact each_mono p _ h2 m' hm'
    · rw [List.mem_singleton.mp hm']
      exact ⟨h8, by rw [hm]; exact hk, due_mono p _ (hd h.more)⟩
  · rw [List.map_append]
    simpa [hm] using List.Sublist.append h3 (List.Sublist.refl [k])

/-- A request that does not succeed. -/
theorem tri_fail {α} {ks G} {c c' : Chan} {x m : Bytes} {k : UInt8} {R : α → List Eff → Prop} (hx : c'.out = c.out ++ x) (hp : x <+: m) (h8 : m.length = 8) (hm : msgKey m = k)
    (hk : k ∈ ([73, 49, 50, 84, 88] : List UInt8)) (hd : ∀ p, G p → Due p m) (hb : ∀ p, G p → .busy ∈ p) (hks : (ks ++ [k]).Nodup) :
    Tri (S ks G) (Boot.bind ((said c c', some ()) : Boot Unit) fun _ => (die 42 : Boot α)) R := by
  refine tri_bind (R := fun _ => Safe) (fun p h => ?_) fun _ => tri_die
  have hs := h.say hx hp h8 hm hk (hd p) (hb p) hks
  refine ⟨fun q hq => ?_, fun _ _ => hs⟩
  rcases prefix_said hq with rfl | rfl
  · rw [List.append_nil]; exact h.safe ((List.sublist_append_left _ _).nodup hks)
  · exact hs

/-- A request that does. -/
theorem tri_said {α} {ks G} {c c' : Chan} {m : Bytes} {k : UInt8} {a : α} (hx : c'.out = c.out ++ m) (h8 : m.length = 8) (hm : msgKey m = k)
    (hk : k ∈ ([73, 49, 50, 84, 88] : List UInt8)) (hd : ∀ p, G p → Due p m) (hb : ∀ p, G p → .busy ∈ p) (hG : Mono G) (hks : (ks ++ [k]).Nodup) :
    Tri (S ks G) ((said c c', some a) : Boot α) (fun b p => b = a ∧ S (ks ++ [k]) G p) := by
  intro p h
  have hs := h.sayAll hx h8 hm hk (hd p) (hb p) hG
  refine ⟨fun q hq => ?_, fun b hb' => ⟨by simpa using hb'.symm, hs⟩⟩
  rcases prefix_said hq with rfl | rfl
  · rw [List.append_nil]; exact h.safe ((List.sublist_append_left _ _).nodup hks)
  · exact hs.safe hks

end Gdnsd.Take
