import Verif.Lemmas.InstanceWay
/-! # Instances: sessions only move forward -/
namespace Rtmfp
namespace Inst

theorem rank_le (x : SState) : x.rank ≤ 6 := by cases x <;> decide

grind_pattern rank_le => x.rank

attribute [grind] Calls SState.rank
attribute [grind =] abandoned_mem

/-- every session is where it was or further -/
def Fwd (st st' : St) : Prop := ∀ s : Nat, (st.sess s).state.rank ≤ (st'.sess s).state.rank

theorem fwd_way {C : Crypto} {st st' : St} {ev : List Ev} (h : Rng st) (w : Way C st st' ev) : Fwd st st' := by
  have hn : (st.sess st.nS).state = .unknown := by rw [h.fresh _ (Nat.le_refl _)]; rfl
  intro x
  cases w <;> grind [answered, Sess.new]

end Inst
end Rtmfp
