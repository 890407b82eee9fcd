import Verif.Tag.Lanes

/-! # Distances in the largest table: pieces 20 to 40

Evaluated one theorem at a time to bound the memory of the kernel. -/

set_option Elab.async false

namespace Kalibr.Tag

theorem t36h9_turned20 : turnedCheck t36h9_20 = true := by decide +kernel
theorem t36h9_later20 : laterCheck 20 t36h9_20 = true := by decide +kernel

theorem t36h9_turned21 : turnedCheck t36h9_21 = true := by decide +kernel
theorem t36h9_later21 : laterCheck 21 t36h9_21 = true := by decide +kernel

theorem t36h9_turned22 : turnedCheck t36h9_22 = true := by decide +kernel
theorem t36h9_later22 : laterCheck 22 t36h9_22 = true := by decide +kernel

theorem t36h9_turned23 : turnedCheck t36h9_23 = true := by decide +kernel
theorem t36h9_later23 : laterCheck 23 t36h9_23 = true := by decide +kernel

theorem t36h9_turned24 : turnedCheck t36h9_24 = true := by decide +kernel
theorem t36h9_later24 : laterCheck 24 t36h9_24 = true := by decide +kernel

theorem t36h9_turned25 : turnedCheck t36h9_25 = true := by decide +kernel
theorem t36h9_later25 : laterCheck 25 t36h9_25 = true := by decide +kernel

theorem t36h9_turned26 : turnedCheck t36h9_26 = true := by decide +kernel
theorem t36h9_later26 : laterCheck 26 t36h9_26 = true := by decide +kernel

theorem t36h9_turned27 : turnedCheck t36h9_27 = true := by decide +kernel
theorem t36h9_later27 : laterCheck 27 t36h9_27 = true := by decide +kernel

theorem t36h9_turned28 : turnedCheck t36h9_28 = true := by decide +kernel
theorem t36h9_later28 : laterCheck 28 t36h9_28 = true := by decide +kernel

theorem t36h9_turned29 : turnedCheck t36h9_29 = true := by decide +kernel
theorem t36h9_later29 : laterCheck 29 t36h9_29 = true := by decide +kernel

theorem t36h9_turned30 : turnedCheck t36h9_30 = true := by decide +kernel
theorem t36h9_later30 : laterCheck 30 t36h9_30 = true := by decide +kernel

theorem t36h9_turned31 : turnedCheck t36h9_31 = true := by decide +kernel
theorem t36h9_later31 : laterCheck 31 t36h9_31 = true := by decide +kernel

theorem t36h9_turned32 : turnedCheck t36h9_32 = true := by decide +kernel
theorem t36h9_later32 : laterCheck 32 t36h9_32 = true := by decide +kernel

theorem t36h9_turned33 : turnedCheck t36h9_33 = true := by decide +kernel
theorem t36h9_later33 : laterCheck 33 t36h9_33 = true := by decide +kernel

theorem t36h9_turned34 : turnedCheck t36h9_34 = true := by decide +kernel
theorem t36h9_later34 : laterCheck 34 t36h9_34 = true := by decide +kernel

theorem t36h9_turned35 : turnedCheck t36h9_35 = true := by decide +kernel
theorem t36h9_later35 : laterCheck 35 t36h9_35 = true := by decide +kernel

theorem t36h9_turned36 : turnedCheck t36h9_36 = true := by decide +kernel
theorem t36h9_later36 : laterCheck 36 t36h9_36 = true := by decide +kernel

theorem t36h9_turned37 : turnedCheck t36h9_37 = true := by decide +kernel
theorem t36h9_later37 : laterCheck 37 t36h9_37 = true := by decide +kernel

theorem t36h9_turned38 : turnedCheck t36h9_38 = true := by decide +kernel
theorem t36h9_later38 : laterCheck 38 t36h9_38 = true := by decide +kernel

theorem t36h9_turned39 : turnedCheck t36h9_39 = true := by decide +kernel
theorem t36h9_later39 : laterCheck 39 t36h9_39 = true := by decide +kernel

theorem t36h9_turned40 : turnedCheck t36h9_40 = true := by decide +kernel
theorem t36h9_later40 : laterCheck 40 t36h9_40 = true := by decide +kernel

end Kalibr.Tag
