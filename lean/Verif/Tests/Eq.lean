import Verif.Tests.Support
/-! Generated from /repo/mach/json_test.go: pairs of values and whether they are equal, in both orders. -/
namespace JP.Test
open JP
set_option maxRecDepth 10000
#guard eqVal testEnv (.err .failure) (.err .failure) == true
#guard eqVal testEnv (.err .failure) (.err .failure) == true
#guard eqVal testEnv .null .null == true
#guard eqVal testEnv .null .null == true
#guard eqVal testEnv (.gint (42)) (.float ⟨0x4045000000000000⟩) == true
#guard eqVal testEnv (.float ⟨0x4045000000000000⟩) (.gint (42)) == true
#guard eqVal testEnv (.gint (0)) (.float ⟨0x0000000000000000⟩) == true
#guard eqVal testEnv (.float ⟨0x0000000000000000⟩) (.gint (0)) == true
#guard eqVal testEnv (.gint (0)) (.gint (0)) == true
#guard eqVal testEnv (.gint (0)) (.gint (0)) == true
#guard eqVal testEnv (.float ⟨0x0000000000000000⟩) (.float ⟨0x0000000000000000⟩) == true
#guard eqVal testEnv (.float ⟨0x0000000000000000⟩) (.float ⟨0x0000000000000000⟩) == true
#guard eqVal testEnv (.float ⟨0x0000000000000000⟩) (.float ⟨0x8000000000000000⟩) == true
#guard eqVal testEnv (.float ⟨0x8000000000000000⟩) (.float ⟨0x0000000000000000⟩) == true
#guard eqVal testEnv (.float .nan) (.float .nan) == false
#guard eqVal testEnv (.float .nan) (.float .nan) == false
#guard eqVal testEnv (.float ⟨0x3ff8000000000000⟩) (.float .nan) == false
#guard eqVal testEnv (.float .nan) (.float ⟨0x3ff8000000000000⟩) == false
#guard eqVal testEnv (.str (tx "")) (.str (tx "")) == true
#guard eqVal testEnv (.str (tx "")) (.str (tx "")) == true
#guard eqVal testEnv (.str (tx "")) (.str (tx "x")) == false
#guard eqVal testEnv (.str (tx "x")) (.str (tx "")) == false
#guard eqVal testEnv (.str (tx "abc")) (.str (tx "abc")) == true
#guard eqVal testEnv (.str (tx "abc")) (.str (tx "abc")) == true
#guard eqVal testEnv (.str (tx "abc")) (.str (tx "abd")) == false
#guard eqVal testEnv (.str (tx "abd")) (.str (tx "abc")) == false
#guard eqVal testEnv (.str (tx "abc")) (.str (tx "abcd")) == false
#guard eqVal testEnv (.str (tx "abcd")) (.str (tx "abc")) == false
#guard eqVal testEnv (.str (tx "áé")) (.str (tx "áé")) == true
#guard eqVal testEnv (.str (tx "áé")) (.str (tx "áé")) == true
#guard eqVal testEnv (.str (tx "ábc")) (.str (tx "abc")) == false
#guard eqVal testEnv (.str (tx "abc")) (.str (tx "ábc")) == false
#guard eqVal testEnv (.bool true) (.bool true) == true
#guard eqVal testEnv (.bool true) (.bool true) == true
#guard eqVal testEnv (.bool true) (.bool false) == false
#guard eqVal testEnv (.bool false) (.bool true) == false
#guard eqVal testEnv .null (.err .failure) == true
#guard eqVal testEnv (.err .failure) .null == true
#guard eqVal testEnv (.err .failure) .null == true
#guard eqVal testEnv .null (.err .failure) == true
#guard eqVal testEnv (.gint (42)) (.str (tx "42")) == true
#guard eqVal testEnv (.str (tx "42")) (.gint (42)) == true
#guard eqVal testEnv (.gint (42)) (.str (tx "42a")) == false
#guard eqVal testEnv (.str (tx "42a")) (.gint (42)) == false
#guard eqVal testEnv (.gint (0)) (.str (tx "")) == true
#guard eqVal testEnv (.str (tx "")) (.gint (0)) == true
#guard eqVal testEnv (.gint (1)) (.str (tx "")) == false
#guard eqVal testEnv (.str (tx "")) (.gint (1)) == false
#guard eqVal testEnv (.gint (-42)) (.str (tx "-42")) == true
#guard eqVal testEnv (.str (tx "-42")) (.gint (-42)) == true
#guard eqVal testEnv (.float ⟨0x4045400000000000⟩) (.str (tx "42.5")) == true
#guard eqVal testEnv (.str (tx "42.5")) (.float ⟨0x4045400000000000⟩) == true
#guard eqVal testEnv (.float ⟨0x4045400000000000⟩) (.str (tx "42.5a")) == false
#guard eqVal testEnv (.str (tx "42.5a")) (.float ⟨0x4045400000000000⟩) == false
#guard eqVal testEnv (.float ⟨0x0000000000000000⟩) (.str (tx "")) == true
#guard eqVal testEnv (.str (tx "")) (.float ⟨0x0000000000000000⟩) == true
#guard eqVal testEnv (.float ⟨0x3ff0000000000000⟩) (.str (tx "")) == false
#guard eqVal testEnv (.str (tx "")) (.float ⟨0x3ff0000000000000⟩) == false
#guard eqVal testEnv (.float ⟨0xc045400000000000⟩) (.str (tx "-42.5")) == true
#guard eqVal testEnv (.str (tx "-42.5")) (.float ⟨0xc045400000000000⟩) == true
#guard eqVal testEnv (.float ⟨0x8000000000000000⟩) (.str (tx "-")) == false
#guard eqVal testEnv (.str (tx "-")) (.float ⟨0x8000000000000000⟩) == false
#guard eqVal testEnv (.float ⟨0x8000000000000000⟩) (.str (tx "-0.0")) == true
#guard eqVal testEnv (.str (tx "-0.0")) (.float ⟨0x8000000000000000⟩) == true
#guard eqVal testEnv (.bool false) (.gint (0)) == true
#guard eqVal testEnv (.gint (0)) (.bool false) == true
#guard eqVal testEnv (.bool true) (.gint (1)) == true
#guard eqVal testEnv (.gint (1)) (.bool true) == true
#guard eqVal testEnv (.bool false) (.float ⟨0x0000000000000000⟩) == true
#guard eqVal testEnv (.float ⟨0x0000000000000000⟩) (.bool false) == true
#guard eqVal testEnv (.bool true) (.float ⟨0x3ff0000000000000⟩) == true
#guard eqVal testEnv (.float ⟨0x3ff0000000000000⟩) (.bool true) == true
#guard eqVal testEnv (.bool true) (.gint (2)) == false
#guard eqVal testEnv (.gint (2)) (.bool true) == false
#guard eqVal testEnv (.bool false) (.str (tx "")) == true
#guard eqVal testEnv (.str (tx "")) (.bool false) == true
#guard eqVal testEnv (.bool false) (.str (tx "0")) == true
#guard eqVal testEnv (.str (tx "0")) (.bool false) == true
#guard eqVal testEnv (.bool false) (.str (tx "0.0")) == true
#guard eqVal testEnv (.str (tx "0.0")) (.bool false) == true
#guard eqVal testEnv (.bool false) (.str (tx "false")) == false
#guard eqVal testEnv (.str (tx "false")) (.bool false) == false
#guard eqVal testEnv (.bool false) (.str (tx "true")) == false
#guard eqVal testEnv (.str (tx "true")) (.bool false) == false
#guard eqVal testEnv (.bool true) (.str (tx "")) == false
#guard eqVal testEnv (.str (tx "")) (.bool true) == false
#guard eqVal testEnv (.bool true) (.str (tx "1")) == true
#guard eqVal testEnv (.str (tx "1")) (.bool true) == true
#guard eqVal testEnv (.bool true) (.str (tx "1.0")) == true
#guard eqVal testEnv (.str (tx "1.0")) (.bool true) == true
#guard eqVal testEnv (.bool true) (.str (tx "2")) == false
#guard eqVal testEnv (.str (tx "2")) (.bool true) == false
#guard eqVal testEnv (.bool true) (.str (tx "true")) == false
#guard eqVal testEnv (.str (tx "true")) (.bool true) == false
#guard eqVal testEnv (.bool true) (.str (tx "false")) == false
#guard eqVal testEnv (.str (tx "false")) (.bool true) == false
#guard eqVal testEnv (.bool false) (.arr []) == true
#guard eqVal testEnv (.arr []) (.bool false) == true
#guard eqVal testEnv (.bool false) (.arr [(.bool false)]) == true
#guard eqVal testEnv (.arr [(.bool false)]) (.bool false) == true
#guard eqVal testEnv (.bool true) (.arr [(.str (tx "false"))]) == false
#guard eqVal testEnv (.arr [(.str (tx "false"))]) (.bool true) == false
#guard eqVal testEnv (.bool false) (.obj []) == false
#guard eqVal testEnv (.obj []) (.bool false) == false
#guard eqVal testEnv (.bool true) (.arr []) == false
#guard eqVal testEnv (.arr []) (.bool true) == false
#guard eqVal testEnv (.bool true) (.arr [(.bool true)]) == true
#guard eqVal testEnv (.arr [(.bool true)]) (.bool true) == true
#guard eqVal testEnv (.bool true) (.arr [(.str (tx "true"))]) == false
#guard eqVal testEnv (.arr [(.str (tx "true"))]) (.bool true) == false
#guard eqVal testEnv (.bool true) (.obj []) == false
#guard eqVal testEnv (.obj []) (.bool true) == false
#guard eqVal testEnv (.str (tx "hello")) (.arr [(.str (tx "hello"))]) == true
#guard eqVal testEnv (.arr [(.str (tx "hello"))]) (.str (tx "hello")) == true
#guard eqVal testEnv (.str (tx "")) (.arr [(.str (tx ""))]) == true
#guard eqVal testEnv (.arr [(.str (tx ""))]) (.str (tx "")) == true
#guard eqVal testEnv (.str (tx "")) (.arr []) == true
#guard eqVal testEnv (.arr []) (.str (tx "")) == true
#guard eqVal testEnv (.gint (42)) (.arr [(.str (tx "42"))]) == true
#guard eqVal testEnv (.arr [(.str (tx "42"))]) (.gint (42)) == true
#guard eqVal testEnv (.gint (42)) (.arr [(.gint (42))]) == true
#guard eqVal testEnv (.arr [(.gint (42))]) (.gint (42)) == true
#guard eqVal testEnv (.gint (42)) (.obj [(tx "42", (.bool true))]) == false
#guard eqVal testEnv (.obj [(tx "42", (.bool true))]) (.gint (42)) == false
#guard eqVal testEnv (.float ⟨0x4045000000000000⟩) (.arr [(.str (tx "42.0"))]) == true
#guard eqVal testEnv (.arr [(.str (tx "42.0"))]) (.float ⟨0x4045000000000000⟩) == true
#guard eqVal testEnv (.float ⟨0x4045000000000000⟩) (.arr [(.float ⟨0x4045000000000000⟩)]) == true
#guard eqVal testEnv (.arr [(.float ⟨0x4045000000000000⟩)]) (.float ⟨0x4045000000000000⟩) == true
#guard eqVal testEnv (.float ⟨0x4045000000000000⟩) (.obj [(tx "42.0", (.bool true))]) == false
#guard eqVal testEnv (.obj [(tx "42.0", (.bool true))]) (.float ⟨0x4045000000000000⟩) == false
end JP.Test
