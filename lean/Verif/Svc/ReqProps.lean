/-
C90: monitoring requests and what becomes of them.
-/
import Verif.Svc.ReqLemmas
import Verif.Svc.Props
namespace Gdnsd.Svc
open Vscf VscfSpec ConfSpec SvcSpec Conf

/-! ### The table of service types -/

theorem all_get {α β : Type} {P : α → β → Prop} {as : List α} {bs : List β} (h : All P as bs) :
    as.length = bs.length ∧ ∀ (i : Nat) a b, as[i]? = some a → bs[i]? = some b → P a b := by
  induction h with
  | nil => exact ⟨rfl, nofun⟩
  | cons h _ ih =>
    refine ⟨by simp [ih.1], ?_⟩
    intro i a b ha hb
    cases i with
    | zero =>
      cases ha
      cases hb
      exact h
    | succ i => exact ih.2 i a b (by simpa using ha) (by simpa using hb)

theorem says_plug {es : List (Entry Val)} {p : Plug} {k : Kind} (h : Says es p k) : k.plug = p := by
  cases h <;> rfl

/-- Declarations and the service types they become. -/
def Match (ds : List Decl) (l : List Stype) : Prop :=
  ds.length = l.length ∧ ∀ (k : Nat) d s, ds[k]? = some d → l[k]? = some s → s.name = d.name ∧ s.kind.plug = d.plug

theorem match_of {es : List (Entry Val)} (hc : CleanOf es) {ds : List Decl} {l : List Stype} (hd : All (fun e (d : Decl) => Declares e d.name d.plug d.es) es ds)
    (hl : All Means es l) : Match ds l := by
  obtain ⟨e1, f1⟩ := all_get hd
  obtain ⟨e2, f2⟩ := all_get hl
  refine ⟨by omega, ?_⟩
  intro k d s h1 h2
  have hk : k < es.length := by have := (List.getElem?_eq_some_iff.mp h1).1; omega
  have h3 := List.getElem?_eq_getElem hk
  have g1 := f1 k _ d h3 h1
  have g2 := f2 k _ s h3 h2
  generalize es[k] = e at *
  cases g2 with
  | @intro n p fs g kind a _ b _ =>
    have e3 := declares_hash a
    rw [declares_hash g1, Val.hash.injEq] at e3
    rw [e3] at g1
    have hcl := (cleanOf_mem hc (List.mem_of_getElem? h3)).1
    rw [declares_hash a] at hcl
    obtain ⟨rfl, rfl⟩ := declares_unique (clean_hash hcl).1 a g1
    exact ⟨rfl, says_plug b⟩

theorem table_get {ds : List Decl} {k : Nat} {svc : Bytes} {p : Option Plug} :
    (typeTable ds)[k]? = some (svc, p) ↔ (∃ d, ds[k]? = some d ∧ svc = d.name ∧ p = some d.plug) ∨
      (k = ds.length ∧ svc = str "up" ∧ p = none) ∨ (k = ds.length + 1 ∧ svc = str "down" ∧ p = none) := by
  unfold typeTable
  by_cases hk : k < ds.length
  · rw [List.getElem?_append_left (by simpa using hk), List.getElem?_map, List.getElem?_eq_getElem hk]
    simp only [Option.map_some, Option.some.injEq, Prod.mk.injEq]
    constructor
    · rintro ⟨rfl, rfl⟩
      exact .inl ⟨_, rfl, rfl, rfl⟩
    · rintro (⟨d, rfl, rfl, rfl⟩ | ⟨h, _⟩ | ⟨h, _⟩)
      · exact ⟨rfl, rfl⟩
      · omega
      · omega
  · rw [List.getElem?_append_right (by simpa using hk), List.length_map, List.getElem?_eq_none (l := ds) (by omega)]
    obtain ⟨q, rfl⟩ : ∃ q, k = ds.length + q := ⟨k - ds.length, by omega⟩
    rw [Nat.add_sub_cancel_left]
    match q with
    | 0 =>
      simp only [List.getElem?_cons_zero, Option.some.injEq, Prod.mk.injEq]
      constructor
      · rintro ⟨rfl, rfl⟩
        exact .inr (.inl ⟨rfl, rfl, rfl⟩)
      · rintro (⟨d, h, _⟩ | ⟨_, rfl, rfl⟩ | ⟨h, _⟩)
        · cases h
        · exact ⟨rfl, rfl⟩
        · omega
    | 1 =>
      simp only [List.getElem?_cons_succ, List.getElem?_cons_zero, Option.some.injEq, Prod.mk.injEq]
      constructor
      · rintro ⟨rfl, rfl⟩
        exact .inr (.inr (by simp))
      · rintro (⟨d, h, _⟩ | ⟨h, _⟩ | ⟨_, rfl, rfl⟩)
        · cases h
        · omega
        · exact ⟨rfl, rfl⟩
    | q + 2 =>
      simp only [List.getElem?_cons_succ, List.getElem?_nil]
      constructor
      · exact nofun
      · rintro (⟨d, h, _⟩ | ⟨h, _⟩ | ⟨h, _⟩)
        · cases h
        · omega
        · omega

/-! ### What plugins are told to monitor -/

theorem pluginFind_eq {p : Plug} {svc : Bytes} {l : List Stype} {k : Nat} {s : Stype} (h1 : l[k]? = some s) (h2 : s.name = svc) (h3 : s.kind.plug = p)
    (h4 : ∀ (j : Nat) y, j < k → l[j]? = some y → y.name ≠ svc) : pluginFind p l svc = some s := by
  unfold pluginFind
  induction l generalizing k with
  | nil => cases h1
  | cons x l ih =>
    cases k with
    | zero =>
      cases h1
      rw [List.filter_cons_of_pos (by rw [h3]; exact beq_self_eq_true _), List.find?_cons_of_pos (by rw [h2]; exact beq_self_eq_true _)]
    | succ k =>
      have hx : x.name ≠ svc := h4 0 x (by omega) rfl
      have ih := ih (k := k) (by simpa using h1) fun j y hj hy => h4 (j + 1) y (by omega) (by simpa using hy)
      rw [List.filter_cons]
      split
      · rw [List.find?_cons_of_neg (by rw [beq_iff_eq]; exact hx)]
        exact ih
      · exact ih

theorem watches_spec {text : Addr → Option Bytes} {ds : List Decl} {l : List Stype} (hm : Match ds l) {ms : List Slot}
    (hmade : ∀ m ∈ ms, ∃ r, Made text (typeTable ds) r m) (n : Nat) :
    ∃ ws, watches (typeTable ds) l ms n = .ok (some ws) ∧ (∀ w ∈ ws, n ≤ w.idx) ∧ (ws.map (·.idx)).Nodup ∧
      ∀ w, w ∈ ws ↔ ∃ i m k t s, ms[i]? = some m ∧ m.type = some (k, t) ∧ l[k]? = some s ∧ w = ⟨s, m.desc, m.text, t, n + i⟩ := by
  induction ms generalizing n with
  | nil => exact ⟨[], rfl, nofun, List.nodup_nil, fun w => ⟨nofun, by rintro ⟨_, _, _, _, _, h, _⟩; cases h⟩⟩
  | cons m ms ih =>
    obtain ⟨ws, h1, h2, h3, h4⟩ := ih (fun m hm => hmade m (List.mem_cons_of_mem _ hm)) (n + 1)
    have hskip : (∀ k t s, m.type = some (k, t) → l[k]? = some s → False) → watches (typeTable ds) l (m :: ms) n = watches (typeTable ds) l ms (n + 1) →
        ∃ ws, watches (typeTable ds) l (m :: ms) n = .ok (some ws) ∧ (∀ w ∈ ws, n ≤ w.idx) ∧ (ws.map (·.idx)).Nodup ∧
        ∀ w, w ∈ ws ↔ ∃ i m' k t s, (m :: ms)[i]? = some m' ∧ m'.type = some (k, t) ∧ l[k]? = some s ∧ w = ⟨s, m'.desc, m'.text, t, n + i⟩ := by
      intro hno he
      refine ⟨ws, he.trans h1, fun w hw => by have := h2 w hw; omega, h3, ?_⟩
      intro w
      rw [h4]
      constructor
      · rintro ⟨i, m', k, t, s, a, b, c, d⟩
        exact ⟨i + 1, m', k, t, s, by simpa using a, b, c, by rw [d]; congr 1; omega⟩
      · rintro ⟨i, m', k, t, s, a, b, c, d⟩
        cases i with
        | zero =>
          cases a
          exact (hno k t s b c).elim
        | succ i => exact ⟨i, m', k, t, s, by simpa using a, b, c, by rw [d]; congr 1; omega⟩
    obtain ⟨r, hr⟩ := hmade m (List.mem_cons_self ..)
    cases hr with
    | admin => exact hskip nofun rfl
    | @service svc t k p s g1 g2 g3 g4 =>
      cases p with
      | none =>
        refine hskip ?_ ?_
        · intro k' t' s' ha hb
          cases ha
          have hk := (List.getElem?_eq_some_iff.mp hb).1
          rcases table_get.mp g2 with ⟨d, _, _, h⟩ | ⟨h, _⟩ | ⟨h, _⟩
          · cases h
          · have := hm.1; omega
          · have := hm.1; omega
        · rw [watches]
          dsimp only
          rw [g2]
      | some p =>
        rcases table_get.mp g2 with ⟨d, hd, rfl, hp⟩ | ⟨_, _, h⟩ | ⟨_, _, h⟩
        · cases hp
          have hk := (List.getElem?_eq_some_iff.mp hd).1
          have hkl : k < l.length := by rw [← hm.1]; exact hk
          have hl : l[k]? = some l[k] := List.getElem?_eq_getElem hkl
          obtain ⟨e1, e2⟩ := hm.2 k d _ hd hl
          have hf : pluginFind d.plug l d.name = some l[k] := by
            refine pluginFind_eq hl e1 e2 ?_
            intro j y hj hy hname
            obtain ⟨p', hfirst⟩ := place_iff.mp g1
            have hjl : j < ds.length := by omega
            have hjd : ds[j]? = some ds[j] := List.getElem?_eq_getElem (by omega)
            refine hfirst.2.2 j (ds[j].name, some ds[j].plug) hj (table_get.mpr (.inl ⟨_, hjd, rfl, rfl⟩)) ?_
            rw [← hname, (hm.2 j _ _ hjd hy).1]
          have hw : watches (typeTable ds) l (⟨some (k, t), s ++ str "/" ++ d.name, downcase s, d.name == str "down"⟩ :: ms) n =
              .ok (some (⟨l[k], s ++ str "/" ++ d.name, downcase s, t, n⟩ :: ws)) := by
            rw [watches]
            dsimp only
            rw [g2]
            dsimp only
            rw [if_neg (by rw [unsupported_iff.mpr g3]; exact nofun), hf]
            dsimp only
            rw [h1]
            rfl
          refine ⟨_, hw, ?_, ?_, ?_⟩
          · intro w hw'
            rcases List.mem_cons.mp hw' with rfl | hw'
            · exact Nat.le_refl _
            · have := h2 w hw'; omega
          · rw [List.map_cons, List.nodup_cons]
            refine ⟨?_, h3⟩
            intro hmem
            rw [List.mem_map] at hmem
            obtain ⟨w, hw1, hw2⟩ := hmem
            have := h2 w hw1
            dsimp only at hw2
            omega
          · intro w
            rw [List.mem_cons, h4]
            constructor
            · rintro (rfl | ⟨i, m', k', t', s', a, b, c, d⟩)
              · exact ⟨0, _, k, t, l[k], rfl, rfl, hl, rfl⟩
              · exact ⟨i + 1, m', k', t', s', by simpa using a, b, c, by rw [d]; congr 1; omega⟩
            · rintro ⟨i, m', k', t', s', a, b, c, d⟩
              cases i with
              | zero =>
                cases a
                cases b
                rw [hl] at c
                cases c
                exact .inl d
              | succ i => exact .inr ⟨i, m', k', t', s', by simpa using a, b, c, by rw [d]; congr 1; omega⟩
        · cases h
        · cases h

/-! ### Everything -/

theorem configure_some {st m : Bool} {cfg : Option Val} {ds : List Decl} (hp : phase1 cfg = some ds) {x : List Decl} {o : Option (List Stype)}
    (h : configure st m cfg = .ok (some (x, o))) : (m = false ∧ o = none) ∨ (m = true ∧ ∃ l, o = some l ∧ stypes ds = .ok (some l)) := by
  unfold configure at h
  rw [hp] at h
  dsimp only at h
  cases ha : configureAll st ds with
  | none => rw [ha] at h; cases h
  | some u =>
    rw [ha] at h
    dsimp only at h
    cases m with
    | false =>
      rw [if_pos rfl] at h
      cases h
      exact .inl ⟨rfl, rfl⟩
    | true =>
      rw [if_neg nofun] at h
      cases hs : stypes ds with
      | ub => rw [hs] at h; cases h
      | ok o' =>
        cases o' with
        | none => rw [hs] at h; cases h
        | some l =>
          rw [hs] at h
          cases h
          exact .inr ⟨rfl, l, rfl, rfl⟩

theorem boot_none {text : Addr → Option Bytes} {st : Bool} {rs : List Req} : boot text st none rs = boot text st (some (.hash [])) rs := rfl

theorem boot_entries {text : Addr → Option Bytes} {st : Bool} {cfg : Option Val} {es : List (Entry Val)} (h : Entries cfg es) {rs : List Req} :
    boot text st cfg rs = boot text st (some (.hash es)) rs := by
  rcases h with ⟨rfl, rfl⟩ | rfl
  · exact boot_none
  · rfl

theorem boot_inv {text : Addr → Option Bytes} {st : Bool} {es : List (Entry Val)} (hc : CleanOf es) (hp : ∀ e ∈ es, Plain e) {rs : List Req} {b : Boot}
    (h : boot text st (some (.hash es)) rs = .ok (some b)) :
    ∃ ds ms, All (fun e (d : Decl) => Declares e d.name d.plug d.es) es ds ∧ Inv text (typeTable ds) rs ms b.indices ∧
      (((∀ m ∈ ms, m.type = none) ∧ b.regs = ms.map (regOf []) ∧ b.watches = []) ∨
        ∃ l, All Means es l ∧ b.regs = ms.map (regOf (numbers l)) ∧ watches (typeTable ds) l ms 0 = .ok (some b.watches)) := by
  unfold boot at h
  cases hph : phase1 (some (.hash es)) with
  | none => rw [hph] at h; cases h
  | some ds =>
    have hd := (phase1_iff hc).mp hph
    rw [hph] at h
    dsimp only at h
    cases hr : requests text (typeTable ds) rs [] with
    | none => rw [hr] at h; cases h
    | some q =>
      obtain ⟨ms, is⟩ := q
      have hi := requests_inv inv_nil hr
      rw [List.nil_append, List.nil_append] at hi
      rw [hr] at h
      dsimp only at h
      cases hcf : configure st (ms.any fun m => m.type.isSome) (some (.hash es)) with
      | ub => rw [hcf] at h; cases h
      | ok o =>
        rw [hcf] at h
        cases o with
        | none => cases h
        | some q =>
          obtain ⟨x, o⟩ := q
          rcases configure_some hph hcf with ⟨hany, rfl⟩ | ⟨hany, l, rfl, hs⟩
          · cases h
            refine ⟨ds, ms, hd, hi, .inl ⟨?_, rfl, rfl⟩⟩
            intro m hm
            rw [List.any_eq_false] at hany
            have := hany m hm
            cases ht : m.type with
            | none => rfl
            | some q => rw [ht] at this; exact absurd rfl this
          · simp only [Outcome.bind] at h
            cases hw : watches (typeTable ds) l ms 0 with
            | ub => rw [hw] at h; cases h
            | ok o =>
              cases o with
              | none => rw [hw] at h; cases h
              | some ws =>
                rw [hw] at h
                cases h
                exact ⟨ds, ms, hd, hi, .inr ⟨l, ((stypes_iff hc hp hd).2 l).mp hs, rfl, hw⟩⟩

theorem entries_clean {cfg : Option Val} {es : List (Entry Val)} (he : Entries cfg es) (hc : ∀ v, cfg = some v → Clean v) : CleanOf es := by
  rcases he with ⟨_, rfl⟩ | he
  · exact .nil
  · exact (clean_hash (hc _ he)).2.2

/-- C90: two requests have the same state exactly if they are for the same service type and the same address or name. -/
theorem C90_share {text : Addr → Option Bytes} {st : Bool} {cfg : Option Val} {es : List (Entry Val)} (he : Entries cfg es) (hc : ∀ v, cfg = some v → Clean v)
    (hp : ∀ e ∈ es, Plain e) {rs : List Req} {b : Boot} (h : boot text st cfg rs = .ok (some b)) :
    b.indices.length = rs.length ∧
    ∀ (i j : Nat) r r' k k', rs[i]? = some r → rs[j]? = some r' → b.indices[i]? = some k → b.indices[j]? = some k' → (k = k' ↔ i = j ∨ SameReq r r') := by
  rw [boot_entries he] at h
  obtain ⟨ds, ms, _, hi, _⟩ := boot_inv (entries_clean he hc) hp h
  exact ⟨hi.len, hi.same⟩

theorem declares_name {e : Entry Val} {n : Bytes} {p : Plug} {fs : List (Entry Val)} (h : Declares e n p fs) : n ≠ nm "up" ∧ n ≠ nm "down" := by
  cases h with
  | intro _ b1 b2 _ _ _ => exact ⟨b1, b2⟩

/-- The numbers that a service type's name stands for: those of the configuration, or the fixed ones of "up" and "down". -/
def Thresholds (l : List Stype) (svc : Bytes) (t : Mon.SvcType) : Prop :=
  (∃ i s, FirstWith (fun s : Stype => s.name = svc) l i s ∧ t = ⟨s.gen.up, s.gen.ok, s.gen.down, s.gen.interval⟩) ∨
  ((svc = nm "up" ∨ svc = nm "down") ∧ t = ⟨20, 10, 10, 10⟩)

theorem firstWith_match {ds : List Decl} {l : List Stype} (hm : Match ds l) {svc : Bytes} {k : Nat} {d : Decl} (hd : ds[k]? = some d)
    (h : place (typeTable ds) svc = some k) : ∃ s, l[k]? = some s ∧ FirstWith (fun s : Stype => s.name = svc) l k s ∧ s.kind.plug = d.plug := by
  obtain ⟨p, h1, _, h3⟩ := place_iff.mp h
  have hk := (List.getElem?_eq_some_iff.mp hd).1
  have hkl : k < l.length := by rw [← hm.1]; exact hk
  have hl : l[k]? = some l[k] := List.getElem?_eq_getElem hkl
  obtain ⟨e1, e2⟩ := hm.2 k d _ hd hl
  have hname : svc = d.name := by
    rcases table_get.mp h1 with ⟨d', hd', e, _⟩ | ⟨e, _⟩ | ⟨e, _⟩
    · rw [hd] at hd'
      cases hd'
      exact e
    · omega
    · omega
  refine ⟨_, hl, ⟨hl, e1.trans hname.symm, ?_⟩, e2⟩
  intro j y hj hy he
  have hjl : j < ds.length := by omega
  have hjd : ds[j]? = some ds[j] := List.getElem?_eq_getElem hjl
  refine h3 j (ds[j].name, some ds[j].plug) hj (table_get.mpr (.inl ⟨_, hjd, rfl, rfl⟩)) ?_
  rw [← he, (hm.2 j _ _ hjd hy).1]

theorem thresholds_of {ds : List Decl} {l : List Stype} (hm : Match ds l) {svc : Bytes} {k : Nat} {p : Option Plug} (h : place (typeTable ds) svc = some k)
    (h1 : (typeTable ds)[k]? = some (svc, p)) : ∃ g, (numbers l)[k]? = some g ∧ Thresholds l svc ⟨g.up, g.ok, g.down, g.interval⟩ := by
  unfold numbers
  rcases table_get.mp h1 with ⟨d, hd, _, _⟩ | ⟨rfl, hs, _⟩ | ⟨rfl, hs, _⟩
  · obtain ⟨s, hs, hf, _⟩ := firstWith_match hm hd h
    refine ⟨s.gen, ?_, .inl ⟨k, s, hf, rfl⟩⟩
    have hk := (List.getElem?_eq_some_iff.mp hs).1
    rw [List.getElem?_append_left (by simpa using hk), List.getElem?_map, hs]
    rfl
  · refine ⟨⟨20, 10, 10, 10, 1⟩, ?_, .inr ⟨.inl (hs.trans (nm_str _).symm), rfl⟩⟩
    rw [List.getElem?_append_right (by rw [List.length_map, hm.1]; exact Nat.le_refl _), List.length_map, hm.1, Nat.sub_self]
    rfl
  · refine ⟨⟨20, 10, 10, 10, 1⟩, ?_, .inr ⟨.inr (hs.trans (nm_str _).symm), rfl⟩⟩
    rw [List.getElem?_append_right (by rw [List.length_map, hm.1]; omega), List.length_map, hm.1, Nat.add_sub_cancel_left]
    rfl

theorem lower_eq (s : Bytes) : Lower s (downcase s) := by
  unfold Lower downcase
  apply List.map_congr_left
  intro c _
  unfold Mon.lower
  have e : (65 ≤ c ∧ c ≤ 90) ↔ (65 ≤ c.toNat ∧ c.toNat ≤ 90) := by
    rw [UInt8.le_iff_toNat_le, UInt8.le_iff_toNat_le]
    exact Iff.rfl
  by_cases h : 65 ≤ c ∧ c ≤ 90
  · rw [if_pos h, if_pos (e.mp h)]
    apply UInt8.toNat.inj
    have := (e.mp h).2
    rw [UInt8.toNat_add]
    simp
  · rw [if_neg h, if_neg (fun h' => h (e.mpr h'))]

/-- C90: the state that a request has is called what the first request for the same called it. It starts down for the service
type "down" and up for every other; the numbers of its service type are those that the configuration says. -/
theorem C90_states {text : Addr → Option Bytes} {st : Bool} {cfg : Option Val} {es : List (Entry Val)} (he : Entries cfg es) (hc : ∀ v, cfg = some v → Clean v)
    (hp : ∀ e ∈ es, Plain e) {rs : List Req} {b : Boot} (h : boot text st cfg rs = .ok (some b)) :
    (∀ k ∈ b.indices, k < b.regs.length) ∧
    ∀ (k : Nat) reg, b.regs[k]? = some reg → ∃ i r, FirstWith (· = k) b.indices i k ∧ rs[i]? = some r ∧
      ((∃ desc, r = .admin desc ∧ reg = (desc, none, false)) ∨
        ∃ svc t s n l, r = .service svc t ∧ Written text t s ∧ All Means es l ∧ Thresholds l svc n ∧
          reg = (s ++ nm "/" ++ svc, some n, decide (svc = nm "down"))) := by
  rw [boot_entries he] at h
  have hc := entries_clean he hc
  obtain ⟨ds, ms, hd, hi, hcase⟩ := boot_inv hc hp h
  have hlen : b.regs.length = ms.length := by
    rcases hcase with ⟨_, h, _⟩ | ⟨_, _, h, _⟩ <;> (rw [h]; simp)
  constructor
  · intro k hk
    obtain ⟨i, hi'⟩ := List.mem_iff_getElem?.mp hk
    have hl : i < rs.length := by rw [← hi.len]; exact (List.getElem?_eq_some_iff.mp hi').1
    obtain ⟨m, hm, _⟩ := hi.fits i _ k (List.getElem?_eq_getElem hl) hi'
    rw [hlen]
    exact (List.getElem?_eq_some_iff.mp hm).1
  · intro k reg hr
    have hk : k < ms.length := by rw [← hlen]; exact (List.getElem?_eq_some_iff.mp hr).1
    have hm : ms[k]? = some ms[k] := List.getElem?_eq_getElem hk
    obtain ⟨i, r, h1, h2, h3⟩ := hi.made k _ hm
    refine ⟨i, r, h1, h2, ?_⟩
    generalize ms[k] = m at *
    rcases hcase with ⟨hno, hregs, _⟩ | ⟨l, hl, hregs, _⟩
    · have hn := hno m (List.mem_of_getElem? hm)
      rw [hregs, List.getElem?_map, hm] at hr
      cases hr
      cases h3 with
      | admin => exact .inl ⟨_, rfl, rfl⟩
      | service _ _ _ _ => cases hn
    · rw [hregs, List.getElem?_map, hm] at hr
      cases hr
      cases h3 with
      | admin => exact .inl ⟨_, rfl, rfl⟩
      | @service svc t q p s g1 g2 g3 g4 =>
        obtain ⟨g, e1, e2⟩ := thresholds_of (match_of hc hd hl) g1 g2
        refine .inr ⟨svc, t, s, _, l, rfl, g4, hl, e2, ?_⟩
        have hdn : (svc == str "down") = decide (svc = nm "down") := by
          by_cases hdn : svc = nm "down"
          · rw [decide_eq_true hdn, hdn]
            rfl
          · rw [decide_eq_false hdn]
            exact beq_eq_false_iff_ne.mpr hdn
        simp only [regOf, Option.bind_some, e1, Option.map_some, hdn]
        rfl

/-- C90: everything that is requested of a service type of the configuration is monitored exactly once, by the plugin and with
the options of that service type, under the text of the first request in lower case; nothing else is. -/
theorem C90_watched {text : Addr → Option Bytes} {st : Bool} {cfg : Option Val} {es : List (Entry Val)} (he : Entries cfg es) (hc : ∀ v, cfg = some v → Clean v)
    (hp : ∀ e ∈ es, Plain e) {rs : List Req} {b : Boot} (h : boot text st cfg rs = .ok (some b)) :
    (b.watches.map (·.idx)).Nodup ∧
    (∀ (i : Nat) svc t k, rs[i]? = some (.service svc t) → b.indices[i]? = some k → svc ≠ nm "up" → svc ≠ nm "down" → ∃ w ∈ b.watches, w.idx = k) ∧
    (∀ w ∈ b.watches, ∃ i svc s l j, FirstWith (· = w.idx) b.indices i w.idx ∧ rs[i]? = some (.service svc w.thing) ∧
      svc ≠ nm "up" ∧ svc ≠ nm "down" ∧ Written text w.thing s ∧ Lower s w.text ∧ w.desc = s ++ nm "/" ++ svc ∧
      All Means es l ∧ FirstWith (fun s : Stype => s.name = svc) l j w.svc) := by
  rw [boot_entries he] at h
  have hc := entries_clean he hc
  obtain ⟨ds, ms, hd, hi, hcase⟩ := boot_inv hc hp h
  rcases hcase with ⟨hno, _, hw⟩ | ⟨l, hl, _, hw⟩
  · rw [hw]
    refine ⟨List.nodup_nil, ?_, nofun⟩
    intro i svc t k h1 h2
    obtain ⟨m, h3, _, _, _, h4, _⟩ := hi.fits i _ k h1 h2
    rw [hno m (List.mem_of_getElem? h3)] at h4
    cases h4
  · have hm := match_of hc hd hl
    obtain ⟨ws, g1, _, g3, g4⟩ := watches_spec (text := text) hm (ms := ms) (fun m hmem => by
      obtain ⟨k, hk⟩ := List.mem_iff_getElem?.mp hmem
      obtain ⟨_, r, _, _, h⟩ := hi.made k m hk
      exact ⟨r, h⟩) 0
    rw [hw] at g1
    cases g1
    refine ⟨g3, ?_, ?_⟩
    · intro i svc t k h1 h2 h3 h4
      obtain ⟨m, h5, q, t', h6, h7, h8⟩ := hi.fits i _ k h1 h2
      obtain ⟨p, h9, _⟩ := place_iff.mp h6
      rcases table_get.mp h9 with ⟨d, hd', _, _⟩ | ⟨_, e, _⟩ | ⟨_, e, _⟩
      · obtain ⟨s, hs, _⟩ := firstWith_match hm hd' h6
        exact ⟨_, (g4 _).mpr ⟨k, m, q, t', s, h5, h7, hs, rfl⟩, Nat.zero_add _⟩
      · exact absurd (e.trans (nm_str _).symm) h3
      · exact absurd (e.trans (nm_str _).symm) h4
    · intro w hmem
      obtain ⟨k, m, q, t, s, h1, h2, h3, rfl⟩ := (g4 w).mp hmem
      obtain ⟨i, r, h4, h5, h6⟩ := hi.made k m h1
      cases h6 with
      | admin => cases h2
      | @service svc t' q' p s' a1 a2 a3 a4 =>
        cases h2
        dsimp only
        rw [Nat.zero_add]
        rcases table_get.mp a2 with ⟨d, hd', e, _⟩ | ⟨e, _⟩ | ⟨e, _⟩
        · obtain ⟨s2, hs, hf, _⟩ := firstWith_match hm hd' a1
          rw [h3] at hs
          cases hs
          have hnot : d.name ≠ nm "up" ∧ d.name ≠ nm "down" := by
            have hk := (List.getElem?_eq_some_iff.mp hd').1
            obtain ⟨ee, ef⟩ := all_get hd
            have hk' : q < es.length := by omega
            exact declares_name (ef q _ d (List.getElem?_eq_getElem hk') hd')
          rw [← e] at hnot
          exact ⟨i, svc, s', l, q, h4, h5, hnot.1, hnot.2, a4, lower_eq s', by rw [nm_str], hl, hf⟩
        · have := (List.getElem?_eq_some_iff.mp h3).1
          have := hm.1
          omega
        · have := (List.getElem?_eq_some_iff.mp h3).1
          have := hm.1
          omega

/-! ### Which configurations are accepted -/

theorem declares_same {es : List (Entry Val)} (hc : CleanOf es) {ds : List Decl} (hd : All (fun e (d : Decl) => Declares e d.name d.plug d.es) es ds)
    {k : Nat} {e : Entry Val} {d : Decl} (h1 : es[k]? = some e) (h2 : ds[k]? = some d) {n : Bytes} {p : Plug} {fs : List (Entry Val)} (h : Declares e n p fs) :
    n = d.name ∧ p = d.plug := by
  have g := (all_get hd).2 k e d h1 h2
  have e3 := declares_hash h
  rw [declares_hash g, Val.hash.injEq] at e3
  rw [e3] at g
  have hcl := (cleanOf_mem hc (List.mem_of_getElem? h1)).1
  rw [declares_hash h] at hcl
  exact declares_unique (clean_hash hcl).1 h g

theorem place_special {es : List (Entry Val)} {ds : List Decl} (hd : All (fun e (d : Decl) => Declares e d.name d.plug d.es) es ds) :
    FirstWith (fun e : Bytes × Option Plug => e.1 = nm "up") (typeTable ds) ds.length (nm "up", none) ∧
    FirstWith (fun e : Bytes × Option Plug => e.1 = nm "down") (typeTable ds) (ds.length + 1) (nm "down", none) := by
  have hname : ∀ (j : Nat) d, ds[j]? = some d → d.name ≠ nm "up" ∧ d.name ≠ nm "down" := by
    intro j d hj
    obtain ⟨e1, e2⟩ := all_get hd
    have hl : j < es.length := by have := (List.getElem?_eq_some_iff.mp hj).1; omega
    exact declares_name (e2 j _ d (List.getElem?_eq_getElem hl) hj)
  refine ⟨⟨table_get.mpr (.inr (.inl ⟨rfl, rfl, rfl⟩)), rfl, ?_⟩, ⟨table_get.mpr (.inr (.inr ⟨rfl, rfl, rfl⟩)), rfl, ?_⟩⟩
  · rintro j ⟨n, p⟩ hj hy
    rcases table_get.mp hy with ⟨d, h1, rfl, _⟩ | ⟨h, _⟩ | ⟨h, _⟩
    · exact (hname j d h1).1
    · omega
    · omega
  · rintro j ⟨n, p⟩ hj hy
    rcases table_get.mp hy with ⟨d, h1, rfl, _⟩ | ⟨_, rfl, _⟩ | ⟨h, _⟩
    · exact (hname j d h1).2
    · exact (by decide : str "up" ≠ nm "down")
    · omega

theorem canMonitor_none (t : Thing) : CanMonitor none t := by
  cases t
  · exact .addr nofun
  · exact .cname nofun nofun nofun

theorem legal_iff {text : Addr → Option Bytes} (ht : ∀ a, ∃ s, text a = some s) {es : List (Entry Val)} (hc : CleanOf es) {ds : List Decl}
    (hd : All (fun e (d : Decl) => Declares e d.name d.plug d.es) es ds) {r : Req} : Legal text (typeTable ds) r ↔ Monitorable es r := by
  obtain ⟨el, ef⟩ := all_get hd
  constructor
  · intro h
    cases h with
    | admin => exact .admin
    | @service svc t k p s h1 h2 h3 =>
      rcases table_get.mp h1.1 with ⟨d, hd', rfl, rfl⟩ | ⟨_, rfl, _⟩ | ⟨_, rfl, _⟩
      · have hk : k < es.length := by have := (List.getElem?_eq_some_iff.mp hd').1; omega
        have he := List.getElem?_eq_getElem hk
        have hdec := ef k _ d he hd'
        refine .type ⟨he, ⟨_, _, hdec⟩, ?_⟩ hdec h2
        rintro j e hj hy ⟨p, fs, hx⟩
        have hjd : j < ds.length := by omega
        have hg := List.getElem?_eq_getElem hjd
        exact h1.2.2 j _ hj (table_get.mpr (.inl ⟨_, hg, rfl, rfl⟩)) (declares_same hc hd hy hg hx).1.symm
      · exact .special (.inl rfl)
      · exact .special (.inr rfl)
  · intro h
    have hw : ∀ t, ∃ s, Written text t s := by
      intro t
      cases t with
      | addr a => exact ht a
      | cname t d => exact ⟨t, rfl⟩
    cases h with
    | admin => exact .admin
    | @special svc t h =>
      obtain ⟨s, hs⟩ := hw t
      rcases h with rfl | rfl
      · exact .service (place_special hd).1 (canMonitor_none t) hs
      · exact .service (place_special hd).2 (canMonitor_none t) hs
    | @type svc t k e p fs h1 h2 h3 =>
      obtain ⟨s, hs⟩ := hw t
      have hk : k < ds.length := by have := (List.getElem?_eq_some_iff.mp h1.1).1; omega
      have hg := List.getElem?_eq_getElem hk
      obtain ⟨rfl, rfl⟩ := declares_same hc hd h1.1 hg h2
      refine .service ⟨table_get.mpr (.inl ⟨_, hg, rfl, rfl⟩), rfl, ?_⟩ h3 hs
      rintro j ⟨n, p⟩ hj hy he
      rcases table_get.mp hy with ⟨d, h4, rfl, _⟩ | ⟨h, _⟩ | ⟨h, _⟩
      · have hjl : j < es.length := by omega
        have hje := List.getElem?_eq_getElem hjl
        have := ef j _ d hje h4
        dsimp only at he
        rw [he] at this
        exact h1.2.2 j _ hj hje ⟨_, _, this⟩
      · omega
      · omega

theorem canMonitor_same {p : Option Plug} {t t' : Thing} (h : SameThing t t') (hm : CanMonitor p t') : CanMonitor p t := by
  cases h with
  | addr =>
    cases hm with
    | addr h => exact .addr h
  | cname =>
    cases hm with
    | cname h1 h2 h3 => exact .cname h1 h2 h3

theorem inv_legal {text : Addr → Option Bytes} (ht : ∀ a, ∃ s, text a = some s) {types : List (Bytes × Option Plug)} {rs : List Req} {ms : List Slot} {is : List Nat}
    (hi : Inv text types rs ms is) {r : Req} (hr : r ∈ rs) : Legal text types r := by
  obtain ⟨i, hr⟩ := List.mem_iff_getElem?.mp hr
  have hl : i < is.length := by rw [hi.len]; exact (List.getElem?_eq_some_iff.mp hr).1
  obtain ⟨m, h1, h2⟩ := hi.fits i r _ hr (List.getElem?_eq_getElem hl)
  cases r with
  | admin d => exact .admin
  | service svc t =>
    obtain ⟨k, t', h3, h4, h5⟩ := h2
    obtain ⟨j, r', _, _, h6⟩ := hi.made _ m h1
    cases h6 with
    | admin => cases h4
    | @service svc' t'' k' p s a1 a2 a3 a4 =>
      cases h4
      obtain rfl := place_inj h3 a1
      obtain ⟨p', hp⟩ := place_iff.mp h3
      rw [hp.1] at a2
      cases a2
      have hw : ∃ s, Written text t s := by
        cases t with
        | addr a => exact ht a
        | cname t d => exact ⟨t, rfl⟩
      obtain ⟨s', hw⟩ := hw
      exact .service hp (canMonitor_same h5 a3) hw

theorem any_iff {text : Addr → Option Bytes} {types : List (Bytes × Option Plug)} {rs : List Req} {ms : List Slot} {is : List Nat} (hi : Inv text types rs ms is) :
    (ms.any fun m => m.type.isSome) = true ↔ ∃ svc t, Req.service svc t ∈ rs := by
  rw [List.any_eq_true]
  constructor
  · rintro ⟨m, hm, h⟩
    obtain ⟨k, hk⟩ := List.mem_iff_getElem?.mp hm
    obtain ⟨i, r, _, h2, h3⟩ := hi.made k m hk
    cases h3 with
    | admin => cases h
    | service _ _ _ _ => exact ⟨_, _, List.mem_of_getElem? h2⟩
  · rintro ⟨svc, t, hr⟩
    obtain ⟨i, hr⟩ := List.mem_iff_getElem?.mp hr
    have hl : i < is.length := by rw [hi.len]; exact (List.getElem?_eq_some_iff.mp hr).1
    obtain ⟨m, h1, _, _, _, h4, _⟩ := hi.fits i _ _ hr (List.getElem?_eq_getElem hl)
    exact ⟨m, List.mem_of_getElem? h1, by rw [h4]; rfl⟩

theorem phase1_some {es : List (Entry Val)} (hc : CleanOf es) : (∃ ds, es.mapM declOf = some ds) ↔ ∀ e ∈ es, ∃ n p fs, Declares e n p fs := by
  constructor
  · rintro ⟨ds, h⟩
    have hd := (phase1_iff hc).mp h
    clear hc h
    induction hd with
    | nil => exact nofun
    | cons a _ ih =>
      intro e he
      rcases List.mem_cons.mp he with rfl | he
      · exact ⟨_, _, _, a⟩
      · exact ih e he
  · intro h
    have : ∃ ds, All (fun e (d : Decl) => Declares e d.name d.plug d.es) es ds := by
      clear hc
      induction es with
      | nil => exact ⟨[], .nil⟩
      | cons e es ih =>
        obtain ⟨ds, ih⟩ := ih fun e he => h e (List.mem_cons_of_mem _ he)
        obtain ⟨n, p, fs, hd⟩ := h e (List.mem_cons_self ..)
        exact ⟨⟨n, p, fs⟩ :: ds, .cons hd ih⟩
    obtain ⟨ds, h2⟩ := this
    exact ⟨ds, (phase1_iff hc).mpr h2⟩

theorem configure_val {st m : Bool} {cfg : Option Val} {ds : List Decl} (hp : phase1 cfg = some ds) (ha : configureAll st ds = some ()) :
    configure st m cfg = if m = false then .ok (some (ds, none)) else (stypes ds).map fun o => o.map fun l => (ds, some l) := by
  unfold configure
  rw [hp]
  dsimp only
  rw [ha]

/-- C90: the configuration with the requests is accepted exactly if every entry declares a service type, every request can be
served, and (if one is for a service type) the options of all service types are right. No assertion fails and no plugin
misses a service type of its own. Missing, as in `C89_types_partial`: data of the wrong kind, `static` without its stanza. -/
theorem C90_accept_partial {text : Addr → Option Bytes} (ht : ∀ a, ∃ s, text a = some s) {st : Bool} {cfg : Option Val} {es : List (Entry Val)} (he : Entries cfg es)
    (hc : ∀ v, cfg = some v → Clean v) (hp : ∀ e ∈ es, Plain e) (hst : st = true ∨ NoStatic es) (rs : List Req) :
    boot text st cfg rs ≠ .ub ∧
    ((∃ b, boot text st cfg rs = .ok (some b)) ↔
      (∀ e ∈ es, ∃ n p fs, Declares e n p fs) ∧ (∀ r ∈ rs, Monitorable es r) ∧ ((∃ svc t, Req.service svc t ∈ rs) → ∃ l, All Means es l)) := by
  have hc := entries_clean he hc
  rw [boot_entries he]
  unfold boot
  cases hph : phase1 (some (.hash es)) with
  | none =>
    refine ⟨nofun, nofun, ?_⟩
    rintro ⟨h, _, _⟩
    obtain ⟨ds, h⟩ := (phase1_some hc).mpr h
    rw [phase1, h] at hph
    cases hph
  | some ds =>
    have hd := (phase1_iff hc).mp hph
    have hdec := (phase1_some hc).mp ⟨ds, hph⟩
    have hconf := configureAll_ok hst hd
    dsimp only
    cases hr : requests text (typeTable ds) rs [] with
    | none =>
      refine ⟨nofun, nofun, ?_⟩
      rintro ⟨_, h, _⟩
      obtain ⟨q, h⟩ := requests_some (ms := []) fun r hr => (legal_iff ht hc hd).mpr (h r hr)
      rw [h] at hr
      cases hr
    | some q =>
      obtain ⟨ms, is⟩ := q
      have hi := requests_inv inv_nil hr
      rw [List.nil_append, List.nil_append] at hi
      have hleg : ∀ r ∈ rs, Monitorable es r := fun r hr => (legal_iff ht hc hd).mp (inv_legal ht hi hr)
      dsimp only
      rw [configure_val hph hconf]
      by_cases hany : (ms.any fun m => m.type.isSome) = false
      · rw [if_pos hany]
        refine ⟨nofun, fun _ => ⟨hdec, hleg, ?_⟩, fun _ => ⟨_, rfl⟩⟩
        intro h
        rw [(any_iff hi).mpr h] at hany
        cases hany
      · rw [if_neg hany]
        rw [Bool.not_eq_false] at hany
        have hany := (any_iff hi).mp hany
        obtain ⟨h1, h2⟩ := stypes_iff hc hp hd
        cases hs : stypes ds with
        | ub => exact absurd hs h1
        | ok o =>
          cases o with
          | none =>
            refine ⟨nofun, nofun, ?_⟩
            rintro ⟨_, _, h⟩
            obtain ⟨l, h⟩ := h hany
            rw [(h2 l).mpr h] at hs
            cases hs
          | some l =>
            have hl := (h2 l).mp hs
            obtain ⟨ws, g1, _⟩ := watches_spec (text := text) (match_of hc hd hl) (ms := ms) (fun m hmem => by
              obtain ⟨k, hk⟩ := List.mem_iff_getElem?.mp hmem
              obtain ⟨_, r, _, _, h⟩ := hi.made k m hk
              exact ⟨r, h⟩) 0
            simp only [Outcome.map, Option.map_some, Outcome.bind, g1]
            exact ⟨nofun, fun _ => ⟨hdec, hleg, fun _ => ⟨l, hl⟩⟩, fun _ => ⟨_, rfl⟩⟩

/-! ### Non-vacuity: `web` is asked for twice, an address and a name are monitored, a datacenter is named -/

/-- A configuration with two service types. -/
def exCfg : List (Entry Val) :=
  [entry "web" (.hash [entry "plugin" (word "http_status"), entry "ok_codes" (.array [word "200", word "301"]), entry "interval" (word "30")]),
   entry "ext" (.hash [entry "plugin" (word "extfile"), entry "file" (word "states"), entry "def_down" (word "true")])]

/-- Requests of plugins. -/
def exReqs : List Req :=
  [.service (str "web") (.addr ⟨false, [192, 0, 2, 1], [0]⟩), .service (str "ext") (.cname (str "Www.Example.com.") [1]),
   .service (str "web") (.addr ⟨false, [192, 0, 2, 1], [1]⟩), .admin (str "dc"), .service (str "down") (.addr ⟨false, [192, 0, 2, 1], [0]⟩)]

theorem exBoot : boot (fun a => some a.bytes) false (some (.hash exCfg)) exReqs = .ok (some
    ⟨[0, 1, 0, 2, 3],
     [([192, 0, 2, 1] ++ str "/web", some ⟨20, 10, 10, 30⟩, false), (str "Www.Example.com./ext", some ⟨20, 10, 10, 10⟩, false), (str "dc", none, false),
      ([192, 0, 2, 1] ++ str "/down", some ⟨20, 10, 10, 10⟩, true)],
     [⟨⟨str "web", ⟨20, 10, 10, 30, 15⟩, .http (str "/") none 80 [200, 301]⟩, [192, 0, 2, 1] ++ str "/web", [192, 0, 2, 1], .addr ⟨false, [192, 0, 2, 1], [0]⟩, 0⟩,
      ⟨⟨str "ext", ⟨20, 10, 10, 10, 5⟩, .extfile (str "states") false 0x8fffffff⟩, str "Www.Example.com./ext", str "www.example.com.", .cname (str "Www.Example.com.") [1], 1⟩]⟩) := by
  decide +kernel

theorem exClean : Clean (.hash exCfg) :=
  .hash (by decide) (.cons (.hash (by decide) (.cons .simple (.cons (.array (.cons .simple (.cons .simple .nil))) (.cons .simple .nil))))
    (.cons (.hash (by decide) (.cons .simple (.cons .simple (.cons .simple .nil)))) .nil))

theorem exPlain : ∀ e ∈ exCfg, Plain e := by
  intro e he name es
  rcases List.mem_cons.mp he with rfl | he
  · constructor
    · intro h v hv vs hs w hw
      cases h
      have hf := (is_iff (by decide)).mp hv
      cases hf
      rcases hs with hs | ⟨_, hs⟩
      · cases hs
        simp only [List.mem_cons, List.not_mem_nil, or_false] at hw
        rcases hw with rfl | rfl <;> exact ⟨_, _, rfl⟩
      · exact absurd rfl (hs _)
    · intro h v hv
      cases h
      have hf := (is_iff (by decide)).mp hv
      cases hf
  · rw [List.mem_singleton.mp he]
    constructor
    · intro h v hv
      cases h
      have hf := (is_iff (by decide)).mp hv
      cases hf
    · intro h v hv
      cases h
      have hf := (is_iff (by decide)).mp hv
      cases hf

theorem exNoStatic : NoStatic exCfg := by
  intro e he n fs hd
  rcases List.mem_cons.mp he with rfl | he
  · cases hd with
    | intro _ _ _ h4 h5 h6 =>
      have hf := (is_iff (by decide)).mp h4
      cases hf
      obtain rfl := upToZero_iff.mp h5
      exact absurd (findPlugin_iff.mpr h6).1 (by decide)
  · rw [List.mem_singleton.mp he] at hd
    cases hd with
    | intro _ _ _ h4 h5 h6 =>
      have hf := (is_iff (by decide)).mp h4
      cases hf
      obtain rfl := upToZero_iff.mp h5
      exact absurd (findPlugin_iff.mpr h6).1 (by decide)

example : ∀ r ∈ exReqs, Monitorable exCfg r :=
  ((C90_accept_partial (text := fun a => some a.bytes) (fun a => ⟨_, rfl⟩) (.inr rfl) (fun v hv => by cases hv; exact exClean) exPlain (.inr exNoStatic) exReqs).2.mp ⟨_, exBoot⟩).2.1

end Gdnsd.Svc
