/-
The start of a daemon whose parts all succeed, beside one that answers (C103).
-/
import Verif.Take.TakeLemmas
import Verif.Ctl.Props
namespace Gdnsd.Take
open Css (msg msgKey msgV msgD)
open Ctl (Chan)
open CtlSpec (Takes)

theorem pull_all : ∀ (bs : List Bytes) {f : Nat} {c : Chan} {r}, bs.length ≤ f → (∀ b ∈ bs, b ≠ []) → c.rx = bs.map .got ++ r →
    ∃ i e, Ctl.pull f c bs.flatten.length = (some bs.flatten, { c with rx := r, inp := i, eof := e })
  | [], f, c, r, _, _, hr => by
    have : c = { c with rx := r, inp := c.inp, eof := c.eof } := by
      have : c.rx = r := by simpa using hr
      cases c; simp_all
    refine ⟨c.inp, c.eof, ?_⟩
    rw [← this]
    cases f <;> rfl
  | b :: bs, 0, c, r, hf, _, _ => by simp at hf
  | b :: bs, f + 1, c, r, hf, hne, hr => by
    have hb := hne b (by simp)
    obtain ⟨x, y, rfl⟩ : ∃ x y, b = x :: y := by cases b with | nil => exact absurd rfl hb | cons x y => exact ⟨x, y, rfl⟩
    unfold Ctl.pull
    rw [if_neg (by simp)]
    unfold Ctl.recv
    rw [hr]
    simp only [List.map_cons, List.cons_append]
    rw [List.take_of_length_le (by simp)]
    obtain ⟨i, e, hc⟩ := pull_all bs (f := f) (c := { c with rx := bs.map .got ++ r, inp := c.inp ++ (x :: y), eof := c.eof || (x :: y : Bytes).isEmpty }) (r := r) (by simpa using hf) (fun b hb => hne b (by simp [hb])) rfl
    refine ⟨i, e, ?_⟩
    have hl : (List.flatten ((x :: y) :: bs)).length - (x :: y : Bytes).length = bs.flatten.length := by simp
    simp only [hl]
    rw [hc]
    simp

theorem said_add {c c' : Chan} {b : Bytes} (h : c'.out = c.out ++ b) (hb : b.length = 8) : said c c' = [.say b] := by
  unfold said
  rw [h, List.drop_left]
  cases b with
  | nil => simp at hb
  | cons x y => simp

theorem send_coop {c : Chan} {req x t} (h8 : req.length = 8) (ht : c.tx = x :: t) (hx : Takes x) :
    Ctl.send c req = (.n 8, { c with tx := t, out := c.out ++ req }) := by
  cases x with
  | fail => cases hx
  | pipe => cases hx
  | part k =>
    have hx : 8 ≤ k := hx
    unfold Ctl.send
    rw [ht]
    dsimp only
    rw [List.take_of_length_le (by omega), show min k req.length = 8 by omega]

end Gdnsd.Take
