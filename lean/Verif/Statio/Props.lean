/-
Properties of statistics (C47).
-/
import Verif.Statio.Lemmas
namespace Gdnsd.Statio

/-- The state after any number of replacements. -/
theorem gen_base {base : List UInt64} {start : UInt64} {ts : List Thread} (g : Gen base start ts) :
    base.length = slotCount ∧ ∀ i, i < slotCount → base.getD i 0 = total (fun t => slotOf i (adds t)) ts := by
  induction g with
  | first now =>
    refine ⟨by simp [initBase], fun i hi => ?_⟩
    simp [initBase, total, hi]
  | next base start ts last now f l f' l' got base' start' _ h1 h2 ih =>
    obtain ⟨ih1, ih2⟩ := ih
    have hlen : (populate base last).length = slotCount := by rw [(populate_get last base 0 (by rw [ih1]; decide)).1, ih1]
    have hs := serialize_eq base start last ih1
    have hd : (serialize base start last).length < 65536 := by
      rw [hs, flat_length, List.length_append, hlen]; simp [slotCount]
    have := handoff_same f l f' l' _ got hd h1
    subst this
    have hx : deserialize (serialize base start last) initBase now = .ok (base', start') := h2
    rw [hs, deserialize_flat _ _ _ _ (by simp [initBase]) (by rw [hlen]; decide), hlen, List.drop_of_length_le (by simp [initBase]), List.append_nil, List.take_of_length_le (by omega)] at hx
    cases hx
    refine ⟨hlen, fun i hi => ?_⟩
    rw [(populate_get last base i (by rw [ih1]; exact hi)).2, ih2 i hi, total_append]

/-- Over any number of replacements, the report of the running daemon is the JSON document of the sums of
the counters of all its threads and of all threads of the daemons before it; and it fits into its buffer. -/
theorem C47_report (base : List UInt64) (start : UInt64) (before : List Thread) (g : Gen base start before) (ts : List Thread) (now : UInt64) :
    getJson base start ts now = .ok (report (now - start) (before ++ ts)) := by
  obtain ⟨h1, h2⟩ := gen_base g
  have hargs : (order.map fun i => (populate base ts).getD i 0) = doc.flatMap fun o => o.2.map fun m => total m.2 (before ++ ts) := by
    have hlt : ∀ i ∈ order, i < slotCount := by decide
    have e1 : (order.map fun i => (populate base ts).getD i 0) = order.map fun i => total (fun t => slotOf i (adds t)) (before ++ ts) := by
      apply List.map_congr_left
      intro i hi
      rw [(populate_get ts base i (by rw [h1]; exact hlt i hi)).2, h2 i (hlt i hi), total_append]
    rw [e1]
    generalize before ++ ts = l
    induction l with
    | nil => rfl
    | cons t l ih =>
      have e2 : ∀ (f : Thread → UInt64), total f (t :: l) = f t + total f l := fun _ => rfl
      simp only [e2]
      have e3 : (order.map fun i => slotOf i (adds t) + total (fun t => slotOf i (adds t)) l) =
          List.zipWith (· + ·) (order.map fun i => slotOf i (adds t)) (order.map fun i => total (fun t => slotOf i (adds t)) l) := by
        rw [List.zipWith_map, List.zipWith_self]
      rw [e3, ih, order_eq]
      rw [show (doc.flatMap fun o => o.2.map fun m => m.2 t) = (doc.flatMap (·.2)).map fun m => m.2 t by rw [List.map_flatMap],
        show (doc.flatMap fun o => o.2.map fun m => total m.2 l) = (doc.flatMap (·.2)).map fun m => total m.2 l by rw [List.map_flatMap],
        show (doc.flatMap fun o => o.2.map fun m => m.2 t + total m.2 l) = (doc.flatMap (·.2)).map fun m => m.2 t + total m.2 l by rw [List.map_flatMap],
        List.zipWith_map, List.zipWith_self]
  have hfill : fill (parseFmt jsonFixed) ((now - start) :: order.map fun i => (populate base ts).getD i 0) = .ok (report (now - start) (before ++ ts)) := by
    rw [hargs, fmt_eq]
    have := Fills.report (now - start) (before ++ ts) [] []
    rw [List.append_nil, List.append_nil] at this
    rw [this]
    simp [fill]
  obtain ⟨l1, l2⟩ := fill_length _ _ _ hfill
  obtain ⟨c1, c2⟩ := counts
  unfold getJson
  dsimp only
  rw [hfill]
  simp only [Outcome.bind_ok]
  rw [show decide (0 < (report (now - start) (before ++ ts)).length ∧ (report (now - start) (before ++ ts)).length < jsonMax) = true from decide_eq_true ⟨by omega, by omega⟩]
  rfl

/-- A number in the report is read as the counter. -/
theorem C47_number (v : UInt64) : value (dec v) = v.toNat ∧ (∀ d ∈ dec v, 48 ≤ d.toNat ∧ d.toNat ≤ 57) ∧ (dec v = [48] ∨ (dec v).head? ≠ some 48) := by
  obtain ⟨h1, _, _, h4, h5⟩ := digits_value 20 v.toNat (Nat.lt_of_lt_of_le v.toNat_lt (by decide)) (by decide)
  exact ⟨h1, h4, h5⟩

/-- The requests by protocol and the requests by result are the same number in every report: they are of
one reading of each counter. -/
theorem C47_consistent (ts : List Thread) :
    total (ofUdp Thread.reqs) ts + total (ofTcp Thread.reqs) ts =
      total Thread.noerror ts + total Thread.refused ts + total Thread.nxdomain ts + total Thread.notimp ts + total Thread.badvers ts + total Thread.formerr ts + total Thread.dropped ts := by
  induction ts with
  | nil => rfl
  | cons t ts ih =>
    have e2 : ∀ (f : Thread → UInt64), total f (t :: ts) = f t + total f ts := fun _ => rfl
    simp only [e2]
    have hr : ofUdp Thread.reqs t + ofTcp Thread.reqs t = t.reqs := by
      unfold ofUdp ofTcp
      cases t.isUdp <;> simp
    have : ofUdp Thread.reqs t + total (ofUdp Thread.reqs) ts + (ofTcp Thread.reqs t + total (ofTcp Thread.reqs) ts) =
        (ofUdp Thread.reqs t + ofTcp Thread.reqs t) + (total (ofUdp Thread.reqs) ts + total (ofTcp Thread.reqs) ts) := by
      ac_rfl
    rw [this, ih, hr]
    unfold Thread.reqs
    ac_rfl

/-- What arrives at the new daemon is what the old one sent, or the transfer is reported as failed and
the counters start at zero. -/
theorem C47_transfer (f : Io) (l : List Io) (f' : Io) (l' : List Io) (base : List UInt64) (start : UInt64) (ts : List Thread) (hb : base.length = slotCount) (now : UInt64) :
    (recvHandoff f' l' (sendHandoff f l (serialize base start ts)) = none ∧ takeOver none initBase now = .ok (initBase, now)) ∨
    ∃ got, recvHandoff f' l' (sendHandoff f l (serialize base start ts)) = some got ∧ takeOver (some got) initBase now = .ok (populate base ts, start) := by
  cases h : recvHandoff f' l' (sendHandoff f l (serialize base start ts)) with
  | none => exact .inl ⟨rfl, rfl⟩
  | some got =>
    refine .inr ⟨got, rfl, ?_⟩
    have hlen : (populate base ts).length = slotCount := by rw [(populate_get ts base 0 (by rw [hb]; decide)).1, hb]
    have hs := serialize_eq base start ts hb
    have := handoff_same f l f' l' _ got (by rw [hs, flat_length, List.length_append, hlen]; simp [slotCount]) h
    subst this
    show deserialize _ _ _ = _
    rw [hs, deserialize_flat _ _ _ _ (by simp [initBase]) (by rw [hlen]; decide), hlen, List.drop_of_length_le (by simp [initBase]), List.append_nil, List.take_of_length_le (by omega)]

/-- And it does arrive if no call fails, the header goes in one piece and every other call moves at least
one byte. -/
theorem C47_arrives (n m : Nat) (hn : 8 ≤ n) (hm : 8 ≤ m) (l l' : List Io) (data : Bytes) (h0 : data ≠ []) (hd : data.length < 65536)
    (hl : ∀ io ∈ l, ∃ k, io = .part (k + 1)) (hl' : ∀ io ∈ l', ∃ k, io = .part (k + 1)) (hlen : data.length ≤ l.length) (hlen' : data.length ≤ l'.length) :
    recvHandoff (.part m) l' (sendHandoff (.part n) l data) = some data := by
  have hsend : ∀ (l : List Io) (d : Bytes), (∀ io ∈ l, ∃ k, io = .part (k + 1)) → d.length ≤ l.length → sendAll l d = d := by
    intro l
    induction l with
    | nil => intro d _ h; have : d = [] := List.length_eq_zero_iff.mp (Nat.le_zero.mp h); subst this; rfl
    | cons io l ih =>
      intro d h1 h2
      cases d with
      | nil => cases io <;> rfl
      | cons b d =>
        obtain ⟨k, rfl⟩ := h1 io (by simp)
        show (b :: d).take (k + 1) ++ sendAll l ((b :: d).drop (k + 1)) = _
        rw [ih _ (fun io h => h1 io (by simp [h])) (by simp at h2 ⊢; omega), List.take_append_drop]
  have hrecv : ∀ (l : List Io) (w : Nat) (s : Bytes), (∀ io ∈ l, ∃ k, io = .part (k + 1)) → w ≤ l.length → w ≤ s.length → recvAll l w s = some (s.take w) := by
    intro l
    induction l with
    | nil => intro w s _ h _; have : w = 0 := Nat.le_zero.mp h; subst this; simp [recvAll]
    | cons io l ih =>
      intro w s h1 h2 h3
      cases w with
      | zero => simp [recvAll]
      | succ w =>
        obtain ⟨k, rfl⟩ := h1 io (by simp)
        unfold recvAll
        dsimp only
        rw [if_neg (by omega), ih _ _ (fun io h => h1 io (by simp [h])) (by simp at h2; omega) (by rw [List.length_drop]; omega)]
        rw [Option.map_some, ← List.take_add]
        congr 2
        omega
  have hs : sendHandoff (.part n) l data = [115, 0, 0, 0] ++ ((List.range 4).map fun i => (data.length / 256 ^ i % 256).toUInt8) ++ data := by
    unfold sendHandoff
    dsimp only
    rw [if_pos hn, hsend l data hl hlen]
  have hpos : 0 < data.length := List.length_pos_iff.mpr h0
  have hsl : (sendHandoff (.part n) l data).length = 8 + data.length := by rw [hs]; simp; omega
  have hdrop : (sendHandoff (.part n) l data).drop 8 = data := by
    rw [hs]; exact List.drop_left' (by simp)
  have hfour : ((sendHandoff (.part n) l data).drop 4).take 4 = (List.range 4).map fun i => (data.length / 256 ^ i % 256).toUInt8 := by
    rw [hs, List.append_assoc, List.drop_left' (by simp), List.take_left' (by simp)]
  have hhead : (sendHandoff (.part n) l data).getD 0 0 = 115 := by rw [hs]; rfl
  unfold recvHandoff
  dsimp only
  rw [if_neg (by omega), if_neg (by rw [hhead]; simp), hfour, hdr_len, Nat.mod_eq_of_lt (by omega), if_neg (by omega), hdrop, hrecv l' _ _ hl' hlen' (Nat.le_refl _), List.take_of_length_le (Nat.le_refl _)]

/-- Statistics of a daemon with more or fewer counters: the common ones are taken over, the others start at
zero. -/
theorem C47_other_version (l : List UInt64) (s now : UInt64) (hl : l.length < 8192) :
    deserialize ((l ++ [s]).flatMap le64) initBase now = .ok (l.take slotCount ++ List.replicate (slotCount - l.length) 0, s) := by
  rw [deserialize_flat l s initBase now (by simp [initBase]) (by omega)]
  simp [initBase]

/-- The check of the length lets lengths below eight pass, although its message says that the length must
be a multiple of eight: data of one byte are read far outside of the buffer. No gdnsd sends such data. -/
theorem C47_false_length : ∃ data base start, data.length = 1 ∧ deserialize data base start = .ub := ⟨[0], initBase, 0, rfl, by decide⟩

/-- Beside C47: a UDP thread's and a TCP thread's counters, handed over once. -/
def aThread (u : Bool) (n : UInt64) : Thread := ⟨u, n, 1, 2, 3, 4, 5, 6, 7, 8, 9, 10, 11, 12, 13, 14, 15, 16, 17, 18, 19, 20, 21, 22, 23, 24, 25, 26, 27, 28, 29, 30, 31, 32⟩

example : ∃ base start, Gen base start [aThread true 100, aThread false 200] ∧ start = 1000 ∧ base.getD 22 0 = 147 ∧ base.getD 0 0 = 100 := by
  have h := C47_arrives 8 8 (by decide) (by decide) (List.replicate 288 (.part 1)) (List.replicate 288 (.part 3)) (serialize initBase 1000 [aThread true 100, aThread false 200]) (by decide +kernel) (by decide +kernel)
    (fun io h => ⟨0, (List.mem_replicate.mp h).2⟩) (fun io h => ⟨2, (List.mem_replicate.mp h).2⟩) (by decide +kernel) (by decide +kernel)
  have h' := C47_transfer (.part 8) (List.replicate 288 (.part 1)) (.part 8) (List.replicate 288 (.part 3)) initBase 1000 [aThread true 100, aThread false 200] (by decide) 2000
  rw [h] at h'
  rcases h' with ⟨h', _⟩ | ⟨got, h1, h2⟩
  · cases h'
  · exact ⟨_, _, .next _ _ [] _ 2000 _ _ _ _ got _ _ (.first 1000) (by rw [h]; exact h1) h2, rfl, by decide +kernel, by decide +kernel⟩

end Gdnsd.Statio
