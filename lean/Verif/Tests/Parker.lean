import Verif.Tests.Support
/-! Generated from /repo/testdata/group1: document, path and results. -/
namespace JP.Test
open JP
set_option maxRecDepth 10000
private def d1 : V := (.obj [(tx "key", (.str (tx "value")))])
#guard gives "$.key" d1 [(.str (tx "value"))]
private def d2 : V := (.obj [(tx "one", (.obj [(tx "key", (.str (tx "value")))])), (tx "two", (.obj [(tx "some", (.str (tx "more"))), (tx "key", (.str (tx "other value")))])), (tx "two.some", (.str (tx "42")))])
#guard gives "$.two.some" d2 [(.str (tx "more"))]
private def d3 : V := (.obj [(tx "key", (.str (tx "value"))), (tx "\"key\"", (.float ⟨0x4045000000000000⟩))])
#guard gives "$[\"key\"]" d3 [(.str (tx "value"))]
#guard gives "$['key']" d3 [(.str (tx "value"))]
private def d4 : V := (.obj [(tx "key", (.str (tx "value"))), (tx "\"key\"", (.float ⟨0x4045000000000000⟩))])
private def d5 : V := (.obj [(tx "屬性", (.str (tx "value")))])
#guard gives "$.屬性" d5 [(.str (tx "value"))]
private def d6 : V := (.obj [(tx "key-dash", (.str (tx "value")))])
#guard gives "$.key-dash" d6 [(.str (tx "value"))]
#guard gives "$['key-dash']" d6 [(.str (tx "value"))]
#guard gives "$[\"key-dash\"]" d6 [(.str (tx "value"))]
private def d7 : V := (.arr [(.obj [(tx "key", (.float ⟨0x0000000000000000⟩))]), (.obj [(tx "key", (.float ⟨0x4045000000000000⟩))]), (.obj [(tx "key", (.float ⟨0xbff0000000000000⟩))]), (.obj [(tx "key", (.float ⟨0x4044800000000000⟩))]), (.obj [(tx "key", (.float ⟨0x4045800000000000⟩))]), (.obj [(tx "key", (.float ⟨0x4045000346dc5d64⟩))]), (.obj [(tx "key", (.float ⟨0x4044fffcb923a29c⟩))]), (.obj [(tx "key", (.float ⟨0x4059000000000000⟩))]), (.obj [(tx "some", (.str (tx "value")))])])
#guard gives "$[?(@.key<42)]" d7 [(.obj [(tx "key", (.float ⟨0x0000000000000000⟩))]), (.obj [(tx "key", (.float ⟨0xbff0000000000000⟩))]), (.obj [(tx "key", (.float ⟨0x4044800000000000⟩))]), (.obj [(tx "key", (.float ⟨0x4044fffcb923a29c⟩))])]
private def d8 : V := (.arr [(.obj [(tx "key", (.float ⟨0x0000000000000000⟩))]), (.obj [(tx "key", (.float ⟨0x4045000000000000⟩))]), (.obj [(tx "key", (.float ⟨0xbff0000000000000⟩))]), (.obj [(tx "key", (.float ⟨0x4044800000000000⟩))]), (.obj [(tx "key", (.float ⟨0x4045800000000000⟩))]), (.obj [(tx "key", (.float ⟨0x4045000346dc5d64⟩))]), (.obj [(tx "key", (.float ⟨0x4044fffcb923a29c⟩))]), (.obj [(tx "key", (.float ⟨0x4059000000000000⟩))]), (.obj [(tx "some", (.str (tx "value")))])])
#guard gives "$[?(-@.key>-42)]" d8 [(.obj [(tx "key", (.float ⟨0x0000000000000000⟩))]), (.obj [(tx "key", (.float ⟨0xbff0000000000000⟩))]), (.obj [(tx "key", (.float ⟨0x4044800000000000⟩))]), (.obj [(tx "key", (.float ⟨0x4044fffcb923a29c⟩))])]
private def d9 : V := (.arr [(.obj [(tx "id", (.float ⟨0x4000000000000000⟩))])])
#guard gives "$..[?(@.id==2)]" d9 [(.obj [(tx "id", (.float ⟨0x4000000000000000⟩))])]
private def d10 : V := (.obj [(tx "id", (.float ⟨0x4000000000000000⟩)), (tx "more", (.arr [(.obj [(tx "id", (.float ⟨0x4000000000000000⟩))]), (.obj [(tx "more", (.obj [(tx "id", (.float ⟨0x4000000000000000⟩))]))]), (.obj [(tx "id", (.obj [(tx "id", (.float ⟨0x4000000000000000⟩))]))]), (.arr [(.obj [(tx "id", (.float ⟨0x4000000000000000⟩))])])]))])
#guard gives "$..[?(@.id==2)]" d10 [(.obj [(tx "id", (.float ⟨0x4000000000000000⟩)), (tx "more", (.arr [(.obj [(tx "id", (.float ⟨0x4000000000000000⟩))]), (.obj [(tx "more", (.obj [(tx "id", (.float ⟨0x4000000000000000⟩))]))]), (.obj [(tx "id", (.obj [(tx "id", (.float ⟨0x4000000000000000⟩))]))]), (.arr [(.obj [(tx "id", (.float ⟨0x4000000000000000⟩))])])]))]), (.obj [(tx "id", (.float ⟨0x4000000000000000⟩))]), (.obj [(tx "id", (.float ⟨0x4000000000000000⟩))]), (.obj [(tx "id", (.float ⟨0x4000000000000000⟩))]), (.obj [(tx "id", (.float ⟨0x4000000000000000⟩))])]
private def d11 : V := (.arr [(.obj [(tx "name", (.str (tx "John Smith")))]), (.obj [(tx "name", .null)])])
#guard gives "$[?(@.name == 'John Smith')]" d11 [(.obj [(tx "name", (.str (tx "John Smith")))])]
#guard gives "$[?(@.name)]" d11 [(.obj [(tx "name", (.str (tx "John Smith")))])]
#guard gives "$[?(!@.name)]" d11 [(.obj [(tx "name", .null)])]
private def d12 : V := (.arr [(.obj [(tx "complext", (.obj [(tx "one", (.arr [(.obj [(tx "name", (.str (tx "first"))), (tx "id", (.float ⟨0x3ff0000000000000⟩))]), (.obj [(tx "name", (.str (tx "next"))), (tx "id", (.float ⟨0x4000000000000000⟩))]), (.obj [(tx "name", (.str (tx "another"))), (tx "id", (.float ⟨0x4008000000000000⟩))]), (.obj [(tx "name", (.str (tx "more"))), (tx "id", (.float ⟨0x4010000000000000⟩))])])), (tx "more", (.obj [(tx "name", (.str (tx "next to last"))), (tx "id", (.float ⟨0x4014000000000000⟩))]))]))]), (.obj [(tx "name", (.str (tx "last"))), (tx "id", (.float ⟨0x4018000000000000⟩))])])
#guard gives "$..*[?(@.id>2)]" d12 [(.obj [(tx "id", (.float ⟨0x4014000000000000⟩)), (tx "name", (.str (tx "next to last")))]), (.obj [(tx "id", (.float ⟨0x4008000000000000⟩)), (tx "name", (.str (tx "another")))]), (.obj [(tx "id", (.float ⟨0x4010000000000000⟩)), (tx "name", (.str (tx "more")))])]
private def d13 : V := (.arr [(.obj [(tx "id", (.float ⟨0x4045000000000000⟩)), (tx "name", (.str (tx "forty-two")))]), (.obj [(tx "id", (.float ⟨0x3ff0000000000000⟩)), (tx "name", (.str (tx "one")))])])
#guard gives "$[?(@.id==42)]" d13 [(.obj [(tx "id", (.float ⟨0x4045000000000000⟩)), (tx "name", (.str (tx "forty-two")))])]
#guard gives "$[?(@.id==42)].name" d13 [(.str (tx "forty-two"))]
private def d14 : V := (.obj [(tx "key", (.float ⟨0x4045000000000000⟩)), (tx "another", (.obj [(tx "key", (.float ⟨0x3ff0000000000000⟩))]))])
#guard gives "$[?(@.key)]" d14 [(.obj [(tx "key", (.float ⟨0x3ff0000000000000⟩))])]
private def d15 : V := (.obj [(tx "id", (.float ⟨0x4000000000000000⟩)), (tx "more", (.arr [(.obj [(tx "id", (.float ⟨0x4000000000000000⟩))]), (.obj [(tx "more", (.obj [(tx "id", (.float ⟨0x4000000000000000⟩))]))]), (.obj [(tx "id", (.obj [(tx "id", (.float ⟨0x4000000000000000⟩))]))]), (.arr [(.obj [(tx "id", (.float ⟨0x4000000000000000⟩))])])]))])
#guard gives "$..[?(@.id==2)]" d15 [(.obj [(tx "id", (.float ⟨0x4000000000000000⟩)), (tx "more", (.arr [(.obj [(tx "id", (.float ⟨0x4000000000000000⟩))]), (.obj [(tx "more", (.obj [(tx "id", (.float ⟨0x4000000000000000⟩))]))]), (.obj [(tx "id", (.obj [(tx "id", (.float ⟨0x4000000000000000⟩))]))]), (.arr [(.obj [(tx "id", (.float ⟨0x4000000000000000⟩))])])]))]), (.obj [(tx "id", (.float ⟨0x4000000000000000⟩))]), (.obj [(tx "id", (.float ⟨0x4000000000000000⟩))]), (.obj [(tx "id", (.float ⟨0x4000000000000000⟩))]), (.obj [(tx "id", (.float ⟨0x4000000000000000⟩))])]
private def d16 : V := (.arr [(.obj [(tx "key", (.float ⟨0x404e000000000000⟩))]), (.obj [(tx "key", (.float ⟨0x4049000000000000⟩))]), (.obj [(tx "key", (.float ⟨0x4024000000000000⟩))]), (.obj [(tx "key", (.float ⟨0xc049000000000000⟩))]), (.obj [(tx "key+50", (.float ⟨0x4059000000000000⟩))])])
#guard gives "$[?(@.key+50==100)]" d16 [(.obj [(tx "key", (.float ⟨0x4049000000000000⟩))])]
private def d17 : V := (.arr [(.obj [(tx "key", (.float ⟨0x4045000000000000⟩))]), (.obj [(tx "key", (.float ⟨0x4045800000000000⟩))]), (.obj [(tx "key", (.float ⟨0x4046000000000000⟩))])])
#guard gives "$[?(@.key>42 && @.key<44)]" d17 [(.obj [(tx "key", (.float ⟨0x4045800000000000⟩))])]
private def d18 : V := (.arr [(.obj [(tx "key", (.float ⟨0x3ff0000000000000⟩))]), (.obj [(tx "key", (.float ⟨0x4008000000000000⟩))]), (.obj [(tx "key", (.str (tx "nice")))]), (.obj [(tx "key", (.bool true))]), (.obj [(tx "key", .null)]), (.obj [(tx "key", (.bool false))]), (.obj [(tx "key", (.obj []))]), (.obj [(tx "key", (.arr []))]), (.obj [(tx "key", (.float ⟨0xbff0000000000000⟩))]), (.obj [(tx "key", (.float ⟨0x0000000000000000⟩))]), (.obj [(tx "key", (.str (tx "")))])])
#guard gives "$[?(@.key>0 && false)]" d18 []
#guard gives "$[?(@.key>0 && true)]" d18 [(.obj [(tx "key", (.float ⟨0x3ff0000000000000⟩))]), (.obj [(tx "key", (.float ⟨0x4008000000000000⟩))]), (.obj [(tx "key", (.bool true))])]
#guard gives "$[?(@.key>0 || false)]" d18 [(.obj [(tx "key", (.float ⟨0x3ff0000000000000⟩))]), (.obj [(tx "key", (.float ⟨0x4008000000000000⟩))]), (.obj [(tx "key", (.bool true))])]
#guard gives "$[?(@.key>0 || true)]" d18 [(.obj [(tx "key", (.float ⟨0x3ff0000000000000⟩))]), (.obj [(tx "key", (.float ⟨0x4008000000000000⟩))]), (.obj [(tx "key", (.str (tx "nice")))]), (.obj [(tx "key", (.bool true))]), (.obj [(tx "key", .null)]), (.obj [(tx "key", (.bool false))]), (.obj [(tx "key", (.obj []))]), (.obj [(tx "key", (.arr []))]), (.obj [(tx "key", (.float ⟨0xbff0000000000000⟩))]), (.obj [(tx "key", (.float ⟨0x0000000000000000⟩))]), (.obj [(tx "key", (.str (tx "")))])]
private def d19 : V := (.arr [(.obj [(tx "key", (.float ⟨0x4045000000000000⟩))]), (.obj [(tx "key", (.float ⟨0x4045800000000000⟩))]), (.obj [(tx "key", (.float ⟨0x4046000000000000⟩))])])
#guard gives "$[?(@.key>43 || @.key<43)]" d19 [(.obj [(tx "key", (.float ⟨0x4045000000000000⟩))]), (.obj [(tx "key", (.float ⟨0x4046000000000000⟩))])]
private def d20 : V := (.arr [(.obj [(tx "key", (.float ⟨0x0000000000000000⟩))]), (.obj [(tx "key", (.float ⟨0x4045000000000000⟩))]), (.obj [(tx "key", (.float ⟨0xbff0000000000000⟩))]), (.obj [(tx "key", (.float ⟨0x4044800000000000⟩))]), (.obj [(tx "key", (.float ⟨0x4045800000000000⟩))]), (.obj [(tx "key", (.float ⟨0x4045000346dc5d64⟩))]), (.obj [(tx "key", (.float ⟨0x4044fffcb923a29c⟩))]), (.obj [(tx "key", (.float ⟨0x4059000000000000⟩))]), (.obj [(tx "some", (.str (tx "value")))])])
#guard gives "$[?(@['key']==42)]" d20 [(.obj [(tx "key", (.float ⟨0x4045000000000000⟩))])]
private def d21 : V := (.arr [(.obj [(tx "@key", (.float ⟨0x0000000000000000⟩))]), (.obj [(tx "@key", (.float ⟨0x4045000000000000⟩))]), (.obj [(tx "key", (.float ⟨0x4045000000000000⟩))]), (.obj [(tx "@key", (.float ⟨0x4045800000000000⟩))]), (.obj [(tx "some", (.str (tx "value")))])])
#guard gives "$[?(@['@key']==42)]" d21 [(.obj [(tx "@key", (.float ⟨0x4045000000000000⟩))])]
private def d22 : V := (.arr [(.arr [(.float ⟨0x4000000000000000⟩), (.float ⟨0x4008000000000000⟩)]), (.arr [(.str (tx "a"))]), (.arr [(.float ⟨0x0000000000000000⟩), (.float ⟨0x4000000000000000⟩)]), (.arr [(.float ⟨0x4000000000000000⟩)])])
#guard gives "$[?(@[-1]==2)]" d22 [(.arr [(.float ⟨0x0000000000000000⟩), (.float ⟨0x4000000000000000⟩)]), (.arr [(.float ⟨0x4000000000000000⟩)])]
private def d23 : V := (.arr [(.arr [(.str (tx "a")), (.str (tx "b"))]), (.arr [(.str (tx "x")), (.str (tx "y"))])])
#guard gives "$[?(@[1]=='b')]" d23 [(.arr [(.str (tx "a")), (.str (tx "b"))])]
private def d24 : V := (.obj [(tx "1", (.arr [(.str (tx "a")), (.str (tx "b"))])), (tx "2", (.arr [(.str (tx "x")), (.str (tx "y"))]))])
#guard gives "$[?(@[1]=='b')]" d24 [(.arr [(.str (tx "a")), (.str (tx "b"))])]
private def d25 : V := (.arr [(.str (tx "some value")), .null, (.str (tx "value")), (.float ⟨0x0000000000000000⟩), (.float ⟨0x3ff0000000000000⟩), (.float ⟨0xbff0000000000000⟩), (.str (tx "")), (.arr []), (.obj []), (.bool false), (.bool true)])
#guard gives "$[?(@)]" d25 [(.str (tx "some value")), (.str (tx "value")), (.float ⟨0x3ff0000000000000⟩), (.float ⟨0xbff0000000000000⟩), (.arr []), (.obj []), (.bool true)]
private def d26 : V := (.arr [(.obj [(tx "a", (.bool true))]), (.obj [(tx "a", (.bool true)), (tx "b", (.bool true))]), (.obj [(tx "a", (.bool true)), (tx "b", (.bool true)), (tx "c", (.bool true))]), (.obj [(tx "b", (.bool true)), (tx "c", (.bool true))]), (.obj [(tx "a", (.bool true)), (tx "c", (.bool true))]), (.obj [(tx "c", (.bool true))]), (.obj [(tx "b", (.bool true))])])
#guard gives "$[?(@.a && (@.b || @.c))]" d26 [(.obj [(tx "a", (.bool true)), (tx "b", (.bool true))]), (.obj [(tx "a", (.bool true)), (tx "b", (.bool true)), (tx "c", (.bool true))]), (.obj [(tx "a", (.bool true)), (tx "c", (.bool true))])]
private def d27 : V := (.arr [(.obj [(tx "a", (.bool true)), (tx "b", (.bool true))]), (.obj [(tx "a", (.bool true)), (tx "b", (.bool true)), (tx "c", (.bool true))]), (.obj [(tx "b", (.bool true)), (tx "c", (.bool true))]), (.obj [(tx "a", (.bool true)), (tx "c", (.bool true))]), (.obj [(tx "a", (.bool true))]), (.obj [(tx "b", (.bool true))]), (.obj [(tx "c", (.bool true))]), (.obj [(tx "d", (.bool true))]), (.obj [])])
#guard gives "$[?(@.a && @.b || @.c)]" d27 [(.obj [(tx "a", (.bool true)), (tx "b", (.bool true))]), (.obj [(tx "a", (.bool true)), (tx "b", (.bool true)), (tx "c", (.bool true))]), (.obj [(tx "b", (.bool true)), (tx "c", (.bool true))]), (.obj [(tx "a", (.bool true)), (tx "c", (.bool true))]), (.obj [(tx "c", (.bool true))])]
private def d28 : V := (.arr [(.obj [(tx "id", (.float ⟨0x4045000000000000⟩)), (tx "name", (.str (tx "forty-two")))]), (.obj [(tx "id", (.float ⟨0x3ff0000000000000⟩)), (tx "name", (.str (tx "one")))])])
#guard gives "$[?(true && true)]" d28 [(.obj [(tx "id", (.float ⟨0x4045000000000000⟩)), (tx "name", (.str (tx "forty-two")))]), (.obj [(tx "id", (.float ⟨0x3ff0000000000000⟩)), (tx "name", (.str (tx "one")))])]
#guard gives "$[?(true && false)]" d28 []
#guard gives "$[?(true || true)]" d28 [(.obj [(tx "id", (.float ⟨0x4045000000000000⟩)), (tx "name", (.str (tx "forty-two")))]), (.obj [(tx "id", (.float ⟨0x3ff0000000000000⟩)), (tx "name", (.str (tx "one")))])]
#guard gives "$[?(true || false)]" d28 [(.obj [(tx "id", (.float ⟨0x4045000000000000⟩)), (tx "name", (.str (tx "forty-two")))]), (.obj [(tx "id", (.float ⟨0x3ff0000000000000⟩)), (tx "name", (.str (tx "one")))])]
#guard gives "$[?((true || false) && true)]" d28 [(.obj [(tx "id", (.float ⟨0x4045000000000000⟩)), (tx "name", (.str (tx "forty-two")))]), (.obj [(tx "id", (.float ⟨0x3ff0000000000000⟩)), (tx "name", (.str (tx "one")))])]
#guard gives "$[?((true && false) && true)]" d28 []
private def d29 : V := (.arr [(.obj [(tx "key", (.float ⟨0x404e000000000000⟩))]), (.obj [(tx "key", (.float ⟨0x4049000000000000⟩))]), (.obj [(tx "key", (.float ⟨0x4024000000000000⟩))]), (.obj [(tx "key", (.float ⟨0xc049000000000000⟩))]), (.obj [(tx "key/10", (.float ⟨0x4014000000000000⟩))])])
#guard gives "$[?(@.key/10==5)]" d29 [(.obj [(tx "key", (.float ⟨0x4049000000000000⟩))])]
private def d30 : V := (.arr [(.float ⟨0x3ff0000000000000⟩), (.obj [(tx "key", (.float ⟨0x4045000000000000⟩))]), (.str (tx "value")), .null])
private def d31 : V := (.arr [(.obj [(tx "key", (.float ⟨0x0000000000000000⟩))]), (.obj [(tx "key", (.float ⟨0x4045000000000000⟩))]), (.obj [(tx "key", (.float ⟨0xbff0000000000000⟩))]), (.obj [(tx "key", (.float ⟨0x3ff0000000000000⟩))]), (.obj [(tx "key", (.float ⟨0x4044800000000000⟩))]), (.obj [(tx "key", (.float ⟨0x4045800000000000⟩))]), (.obj [(tx "key", (.float ⟨0x4045000346dc5d64⟩))]), (.obj [(tx "key", (.float ⟨0x4044fffcb923a29c⟩))]), (.obj [(tx "key", (.float ⟨0x4059000000000000⟩))]), (.obj [(tx "key", (.str (tx "some")))]), (.obj [(tx "key", (.str (tx "42")))]), (.obj [(tx "key", .null)]), (.obj [(tx "key", (.float ⟨0x407a400000000000⟩))]), (.obj [(tx "key", (.str (tx "")))]), (.obj [(tx "key", (.obj []))]), (.obj [(tx "key", (.arr []))]), (.obj [(tx "key", (.arr [(.float ⟨0x4045000000000000⟩)]))]), (.obj [(tx "key", (.obj [(tx "key", (.float ⟨0x4045000000000000⟩))]))]), (.obj [(tx "key", (.obj [(tx "some", (.float ⟨0x4045000000000000⟩))]))]), (.obj [(tx "some", (.str (tx "value")))])])
#guard gives "$[?(@.key==42)]" d31 [(.obj [(tx "key", (.float ⟨0x4045000000000000⟩))]), (.obj [(tx "key", (.str (tx "42")))]), (.obj [(tx "key", (.arr [(.float ⟨0x4045000000000000⟩)]))])]
private def d32 : V := (.arr [(.float ⟨0x0000000000000000⟩), (.float ⟨0x4045000000000000⟩), (.float ⟨0xbff0000000000000⟩), (.float ⟨0x4044800000000000⟩), (.float ⟨0x4045800000000000⟩), (.float ⟨0x4045000346dc5d64⟩), (.float ⟨0x4044fffcb923a29c⟩), .null, (.float ⟨0x4059000000000000⟩)])
#guard gives "$[?(@==42)]" d32 [(.float ⟨0x4045000000000000⟩)]
private def d33 : V := (.arr [(.obj [(tx "key", (.float ⟨0x4045000000000000⟩))])])
#guard gives "$[?(@.key==43)]" d33 []
private def d34 : V := (.obj [(tx "a", (.obj [(tx "key", (.float ⟨0x0000000000000000⟩))])), (tx "b", (.obj [(tx "key", (.float ⟨0x4045000000000000⟩))])), (tx "c", (.obj [(tx "key", (.float ⟨0xbff0000000000000⟩))])), (tx "d", (.obj [(tx "key", (.float ⟨0x4044800000000000⟩))])), (tx "e", (.obj [(tx "key", (.float ⟨0x4045800000000000⟩))])), (tx "f", (.obj [(tx "key", (.float ⟨0x4045000346dc5d64⟩))])), (tx "g", (.obj [(tx "key", (.float ⟨0x4044fffcb923a29c⟩))])), (tx "h", (.obj [(tx "key", (.float ⟨0x4059000000000000⟩))])), (tx "i", (.obj [(tx "some", (.str (tx "value")))]))])
#guard gives "$[?(@.key==42)]" d34 [(.obj [(tx "key", (.float ⟨0x4045000000000000⟩))])]
private def d35 : V := (.obj [(tx "id", (.float ⟨0x4000000000000000⟩))])
#guard gives "$[?(@.id==2)]" d35 []
private def d36 : V := (.arr [(.obj [(tx "d", (.arr [(.str (tx "v1")), (.str (tx "v2"))]))]), (.obj [(tx "d", (.arr [(.str (tx "a")), (.str (tx "b"))]))]), (.obj [(tx "d", (.str (tx "v1")))]), (.obj [(tx "d", (.str (tx "v2")))]), (.obj [(tx "d", (.obj []))]), (.obj [(tx "d", (.arr []))]), (.obj [(tx "d", .null)]), (.obj [(tx "d", (.float ⟨0xbff0000000000000⟩))]), (.obj [(tx "d", (.float ⟨0x0000000000000000⟩))]), (.obj [(tx "d", (.float ⟨0x3ff0000000000000⟩))]), (.obj [(tx "d", (.str (tx "['v1','v2']")))]), (.obj [(tx "d", (.str (tx "['v1', 'v2']")))]), (.obj [(tx "d", (.str (tx "v1,v2")))]), (.obj [(tx "d", (.str (tx "[\"v1\", \"v2\"]")))]), (.obj [(tx "d", (.str (tx "[\"v1\",\"v2\"]")))])])
#guard gives "$[?(@.d==[\"v1\",\"v2\"])]" d36 [(.obj [(tx "d", (.arr [(.str (tx "v1")), (.str (tx "v2"))]))])]
private def d37 : V := (.arr [(.arr [(.float ⟨0x3ff0000000000000⟩), (.float ⟨0x4000000000000000⟩)]), (.arr [(.float ⟨0x4000000000000000⟩), (.float ⟨0x4008000000000000⟩)]), (.arr [(.float ⟨0x3ff0000000000000⟩)]), (.arr [(.float ⟨0x4000000000000000⟩)]), (.arr [(.float ⟨0x3ff0000000000000⟩), (.float ⟨0x4000000000000000⟩), (.float ⟨0x4008000000000000⟩)]), (.float ⟨0x3ff0000000000000⟩), (.float ⟨0x4000000000000000⟩), (.float ⟨0x4008000000000000⟩)])
private def d38 : V := (.arr [(.obj [(tx "key", (.float ⟨0x4045000000000000⟩))]), (.obj [(tx "key", (.float ⟨0x4045800000000000⟩))]), (.obj [(tx "key", (.float ⟨0x4046000000000000⟩))])])
#guard gives "$[?((@.key<44)==false)]" d38 [(.obj [(tx "key", (.float ⟨0x4046000000000000⟩))])]
private def d39 : V := (.arr [(.obj [(tx "some", (.str (tx "some value")))]), (.obj [(tx "key", (.bool true))]), (.obj [(tx "key", (.bool false))]), (.obj [(tx "key", .null)]), (.obj [(tx "key", (.str (tx "value")))]), (.obj [(tx "key", (.str (tx "")))]), (.obj [(tx "key", (.float ⟨0x0000000000000000⟩))]), (.obj [(tx "key", (.float ⟨0x3ff0000000000000⟩))]), (.obj [(tx "key", (.float ⟨0xbff0000000000000⟩))]), (.obj [(tx "key", (.float ⟨0x4045000000000000⟩))]), (.obj [(tx "key", (.obj []))]), (.obj [(tx "key", (.arr [(.float ⟨0x0000000000000000⟩)]))]), (.obj [(tx "key", (.arr []))])])
#guard gives "$[?(@.key==false)]" d39 [(.obj [(tx "key", (.bool false))]), (.obj [(tx "key", (.str (tx "")))]), (.obj [(tx "key", (.float ⟨0x0000000000000000⟩))]), (.obj [(tx "key", (.arr [(.float ⟨0x0000000000000000⟩)]))]), (.obj [(tx "key", (.arr []))])]
#guard gives "$[?(@.key==null)]" d39 [(.obj [(tx "some", (.str (tx "some value")))]), (.obj [(tx "key", .null)])]
private def d40 : V := (.arr [(.obj [(tx "key", (.float ⟨0x4045000000000000⟩))]), (.obj [(tx "key", (.float ⟨0x4045800000000000⟩))]), (.obj [(tx "key", (.float ⟨0x4046000000000000⟩))])])
#guard gives "$[?((@.key<44)==false)]" d40 [(.obj [(tx "key", (.float ⟨0x4046000000000000⟩))])]
private def d41 : V := (.arr [(.obj [(tx "a", (.arr [(.obj [(tx "price", (.float ⟨0x3ff0000000000000⟩))]), (.obj [(tx "price", (.float ⟨0x4008000000000000⟩))])]))]), (.obj [(tx "a", (.arr [(.obj [(tx "price", (.float ⟨0x4026000000000000⟩))])]))]), (.obj [(tx "a", (.arr [(.obj [(tx "price", (.float ⟨0x4020000000000000⟩))]), (.obj [(tx "price", (.float ⟨0x4028000000000000⟩))]), (.obj [(tx "price", (.float ⟨0x4008000000000000⟩))])]))]), (.obj [(tx "a", (.arr []))])])
private def d42 : V := (.arr [(.obj [(tx "key", (.float ⟨0x404e000000000000⟩))]), (.obj [(tx "key", (.float ⟨0x4049000000000000⟩))]), (.obj [(tx "key", (.float ⟨0x4024000000000000⟩))]), (.obj [(tx "key", (.float ⟨0xc049000000000000⟩))]), (.obj [(tx "key-50", (.float ⟨0xc059000000000000⟩))])])
#guard gives "$[?(@.key-50==-100)]" d42 [(.obj [(tx "key", (.float ⟨0xc049000000000000⟩))])]
#guard gives "$[?(@.key - 50==-100)]" d42 [(.obj [(tx "key", (.float ⟨0xc049000000000000⟩))])]
#guard gives "$[?(@['key-50']==-100)]" d42 [(.obj [(tx "key-50", (.float ⟨0xc059000000000000⟩))])]
private def d43 : V := (.arr [(.obj [(tx "key1", (.float ⟨0x4059000000000000⟩)), (tx "key2", (.float ⟨0x4059000000000000⟩))]), (.obj [(tx "key1", (.float ⟨0x405a400000000000⟩)), (tx "key2", (.float ⟨0x4069000000000000⟩))])])
#guard gives "$[?((@.key1 + 110) == 210)]" d43 [(.obj [(tx "key1", (.float ⟨0x4059000000000000⟩)), (tx "key2", (.float ⟨0x4059000000000000⟩))])]
private def d44 : V := (.arr [(.obj [(tx "key1", (.float ⟨0x4059000000000000⟩)), (tx "key2", (.float ⟨0x4059000000000000⟩))]), (.obj [(tx "key1", (.float ⟨0x405a400000000000⟩)), (tx "key2", (.float ⟨0x4069000000000000⟩))])])
#guard gives "$[?((110 + @.key1) == 210)]" d44 [(.obj [(tx "key1", (.float ⟨0x4059000000000000⟩)), (tx "key2", (.float ⟨0x4059000000000000⟩))])]
private def d45 : V := (.arr [(.obj [(tx "key1", (.float ⟨0x4059000000000000⟩)), (tx "key2", (.float ⟨0x4059000000000000⟩))]), (.obj [(tx "key1", (.float ⟨0x405a400000000000⟩)), (tx "key2", (.float ⟨0x4069000000000000⟩))])])
#guard gives "$[?((@.key1 + @.key2) == 200)]" d45 [(.obj [(tx "key1", (.float ⟨0x4059000000000000⟩)), (tx "key2", (.float ⟨0x4059000000000000⟩))])]
private def d46 : V := (.arr [(.obj [(tx "some", (.str (tx "value")))])])
#guard gives "$[?(@.key<42)]" d46 []
private def d47 : V := (.arr [(.obj [(tx "some", (.str (tx "value")))])])
#guard gives "$[?(42 < @.key)]" d47 []
private def d48 : V := (.arr [(.obj [(tx "some", (.str (tx "value")))])])
#guard gives "$[?(@.other < @.key)]" d48 []
private def d49 : V := (.arr [(.obj [(tx "key1", (.float ⟨0x0000000000000000⟩)), (tx "key2", (.float ⟨0x4034000000000000⟩))]), (.obj [(tx "key1", (.float ⟨0x4024000000000000⟩)), (tx "key2", (.float ⟨0x4022000000000000⟩))])])
#guard gives "$[?(@.key1 < @.key2)]" d49 [(.obj [(tx "key1", (.float ⟨0x0000000000000000⟩)), (tx "key2", (.float ⟨0x4034000000000000⟩))])]
private def d50 : V := (.arr [(.arr [(.float ⟨0x3ff0000000000000⟩), (.float ⟨0x4000000000000000⟩), (.float ⟨0x4008000000000000⟩)]), (.arr [(.float ⟨0x3ff0000000000000⟩)]), (.arr [(.float ⟨0x4000000000000000⟩), (.float ⟨0x4008000000000000⟩)]), (.float ⟨0x3ff0000000000000⟩), (.float ⟨0x4000000000000000⟩)])
private def d51 : V := (.arr [(.arr [(.float ⟨0x3ff0000000000000⟩), (.float ⟨0x4000000000000000⟩)]), (.arr [(.float ⟨0x4000000000000000⟩), (.float ⟨0x4008000000000000⟩)]), (.arr [(.float ⟨0x3ff0000000000000⟩)]), (.arr [(.float ⟨0x4000000000000000⟩)]), (.arr [(.float ⟨0x3ff0000000000000⟩), (.float ⟨0x4000000000000000⟩), (.float ⟨0x4008000000000000⟩)]), (.float ⟨0x3ff0000000000000⟩), (.float ⟨0x4000000000000000⟩), (.float ⟨0x4008000000000000⟩)])
private def d52 : V := (.arr [(.obj [(tx "key", (.float ⟨0xc02899999999999a⟩))]), (.obj [(tx "key", (.float ⟨0xbfbf7ced916872b0⟩))]), (.obj [(tx "key", (.float ⟨0xc028000000000000⟩))]), (.obj [(tx "key", (.float ⟨0x402899999999999a⟩))]), (.obj [(tx "key", (.float ⟨0x4000000000000000⟩))]), (.obj [(tx "key", (.str (tx "-0.123e2")))])])
#guard gives "$[?(@.key==-0.123e2)]" d52 [(.obj [(tx "key", (.float ⟨0xc02899999999999a⟩))]), (.obj [(tx "key", (.str (tx "-0.123e2")))])]
private def d53 : V := (.arr [(.obj [(tx "d", (.obj [(tx "k", (.str (tx "v")))]))]), (.obj [(tx "d", (.obj [(tx "a", (.str (tx "b")))]))]), (.obj [(tx "d", (.str (tx "k")))]), (.obj [(tx "d", (.str (tx "v")))]), (.obj [(tx "d", (.obj []))]), (.obj [(tx "d", (.arr []))]), (.obj [(tx "d", .null)]), (.obj [(tx "d", (.float ⟨0xbff0000000000000⟩))]), (.obj [(tx "d", (.float ⟨0x0000000000000000⟩))]), (.obj [(tx "d", (.float ⟨0x3ff0000000000000⟩))]), (.obj [(tx "d", (.str (tx "[object Object]")))]), (.obj [(tx "d", (.str (tx "{\"k\": \"v\"}")))]), (.obj [(tx "d", (.str (tx "{\"k\":\"v\"}")))]), (.str (tx "v"))])
private def d54 : V := (.arr [(.obj [(tx "key", (.str (tx "some")))]), (.obj [(tx "key", (.str (tx "value")))]), (.obj [(tx "key", .null)]), (.obj [(tx "key", (.float ⟨0x0000000000000000⟩))]), (.obj [(tx "key", (.float ⟨0x3ff0000000000000⟩))]), (.obj [(tx "key", (.float ⟨0xbff0000000000000⟩))]), (.obj [(tx "key", (.str (tx "")))]), (.obj [(tx "key", (.obj []))]), (.obj [(tx "key", (.arr []))]), (.obj [(tx "key", (.str (tx "valuemore")))]), (.obj [(tx "key", (.str (tx "morevalue")))]), (.obj [(tx "key", (.arr [(.str (tx "value"))]))]), (.obj [(tx "key", (.obj [(tx "some", (.str (tx "value")))]))]), (.obj [(tx "key", (.obj [(tx "key", (.str (tx "value")))]))]), (.obj [(tx "some", (.str (tx "value")))])])
#guard gives "$[?(@.key==\"value\")]" d54 [(.obj [(tx "key", (.str (tx "value")))]), (.obj [(tx "key", (.arr [(.str (tx "value"))]))])]
private def d55 : V := (.arr [(.obj [(tx "key", (.str (tx "some")))]), (.obj [(tx "key", (.str (tx "value")))]), (.obj [(tx "key", (.str (tx "hi@example.com")))])])
#guard gives "$[?(@.key==\"hi@example.com\")]" d55 [(.obj [(tx "key", (.str (tx "hi@example.com")))])]
private def d56 : V := (.arr [(.obj [(tx "key", (.str (tx "some")))]), (.obj [(tx "key", (.str (tx "value")))]), (.obj [(tx "key", (.str (tx "some.value")))])])
#guard gives "$[?(@.key==\"some.value\")]" d56 [(.obj [(tx "key", (.str (tx "some.value")))])]
private def d57 : V := (.arr [(.obj [(tx "key", (.str (tx "some")))]), (.obj [(tx "key", (.str (tx "value")))])])
#guard gives "$[?(@.key=='value')]" d57 [(.obj [(tx "key", (.str (tx "value")))])]
private def d58 : V := (.arr [(.obj [(tx "some", (.str (tx "some value")))]), (.obj [(tx "key", (.bool true))]), (.obj [(tx "key", (.bool false))]), (.obj [(tx "key", .null)]), (.obj [(tx "key", (.str (tx "value")))]), (.obj [(tx "key", (.str (tx "")))]), (.obj [(tx "key", (.float ⟨0x0000000000000000⟩))]), (.obj [(tx "key", (.float ⟨0x3ff0000000000000⟩))]), (.obj [(tx "key", (.float ⟨0xbff0000000000000⟩))]), (.obj [(tx "key", (.float ⟨0x4045000000000000⟩))]), (.obj [(tx "key", (.obj []))]), (.obj [(tx "key", (.arr [(.float ⟨0x3ff0000000000000⟩)]))]), (.obj [(tx "key", (.arr []))])])
#guard gives "$[?(@.key==true)]" d58 [(.obj [(tx "key", (.bool true))]), (.obj [(tx "key", (.float ⟨0x3ff0000000000000⟩))]), (.obj [(tx "key", (.arr [(.float ⟨0x3ff0000000000000⟩)]))])]
private def d59 : V := (.obj [(tx "value", (.float ⟨0x4045000000000000⟩)), (tx "items", (.arr [(.obj [(tx "key", (.float ⟨0x4024000000000000⟩))]), (.obj [(tx "key", (.float ⟨0x4045000000000000⟩))]), (.obj [(tx "key", (.float ⟨0x4049000000000000⟩))])]))])
#guard gives "$.items[?(@.key==$.value)]" d59 [(.obj [(tx "key", (.float ⟨0x4045000000000000⟩))])]
private def d60 : V := (.arr [(.obj [(tx "key", (.float ⟨0x0000000000000000⟩))]), (.obj [(tx "key", (.float ⟨0x4045000000000000⟩))]), (.obj [(tx "key", (.float ⟨0xbff0000000000000⟩))]), (.obj [(tx "key", (.float ⟨0x4044800000000000⟩))]), (.obj [(tx "key", (.float ⟨0x4045800000000000⟩))]), (.obj [(tx "key", (.float ⟨0x4045000346dc5d64⟩))]), (.obj [(tx "key", (.float ⟨0x4044fffcb923a29c⟩))]), (.obj [(tx "key", (.float ⟨0x4059000000000000⟩))]), (.obj [(tx "key", (.str (tx "43")))]), (.obj [(tx "key", (.str (tx "42")))]), (.obj [(tx "key", (.str (tx "41")))]), (.obj [(tx "key", (.str (tx "value")))]), (.obj [(tx "some", (.str (tx "value")))])])
#guard gives "$[?(@.key>42)]" d60 [(.obj [(tx "key", (.float ⟨0x4045800000000000⟩))]), (.obj [(tx "key", (.float ⟨0x4045000346dc5d64⟩))]), (.obj [(tx "key", (.float ⟨0x4059000000000000⟩))])]
#guard gives "$[?(@.key>=42)]" d60 [(.obj [(tx "key", (.float ⟨0x4045000000000000⟩))]), (.obj [(tx "key", (.float ⟨0x4045800000000000⟩))]), (.obj [(tx "key", (.float ⟨0x4045000346dc5d64⟩))]), (.obj [(tx "key", (.float ⟨0x4059000000000000⟩))])]
#guard gives "$[?(@.key >= 42)]" d60 [(.obj [(tx "key", (.float ⟨0x4045000000000000⟩))]), (.obj [(tx "key", (.float ⟨0x4045800000000000⟩))]), (.obj [(tx "key", (.float ⟨0x4045000346dc5d64⟩))]), (.obj [(tx "key", (.float ⟨0x4059000000000000⟩))])]
#guard gives "$[?(@.key >= 42.0)]" d60 [(.obj [(tx "key", (.float ⟨0x4045000000000000⟩))]), (.obj [(tx "key", (.float ⟨0x4045800000000000⟩))]), (.obj [(tx "key", (.float ⟨0x4045000346dc5d64⟩))]), (.obj [(tx "key", (.float ⟨0x4059000000000000⟩))])]
#guard gives "$[?(@.key<42)]" d60 [(.obj [(tx "key", (.float ⟨0x0000000000000000⟩))]), (.obj [(tx "key", (.float ⟨0xbff0000000000000⟩))]), (.obj [(tx "key", (.float ⟨0x4044800000000000⟩))]), (.obj [(tx "key", (.float ⟨0x4044fffcb923a29c⟩))])]
#guard gives "$[?(@.key<=42)]" d60 [(.obj [(tx "key", (.float ⟨0x0000000000000000⟩))]), (.obj [(tx "key", (.float ⟨0x4045000000000000⟩))]), (.obj [(tx "key", (.float ⟨0xbff0000000000000⟩))]), (.obj [(tx "key", (.float ⟨0x4044800000000000⟩))]), (.obj [(tx "key", (.float ⟨0x4044fffcb923a29c⟩))])]
#guard gives "$[?(!(@.key==42))]" d60 [(.obj [(tx "key", (.float ⟨0x0000000000000000⟩))]), (.obj [(tx "key", (.float ⟨0xbff0000000000000⟩))]), (.obj [(tx "key", (.float ⟨0x4044800000000000⟩))]), (.obj [(tx "key", (.float ⟨0x4045800000000000⟩))]), (.obj [(tx "key", (.float ⟨0x4045000346dc5d64⟩))]), (.obj [(tx "key", (.float ⟨0x4044fffcb923a29c⟩))]), (.obj [(tx "key", (.float ⟨0x4059000000000000⟩))]), (.obj [(tx "key", (.str (tx "43")))]), (.obj [(tx "key", (.str (tx "41")))]), (.obj [(tx "key", (.str (tx "value")))]), (.obj [(tx "some", (.str (tx "value")))])]
#guard gives "$[?(!(@.key<42))]" d60 [(.obj [(tx "key", (.float ⟨0x4045000000000000⟩))]), (.obj [(tx "key", (.float ⟨0x4045800000000000⟩))]), (.obj [(tx "key", (.float ⟨0x4045000346dc5d64⟩))]), (.obj [(tx "key", (.float ⟨0x4059000000000000⟩))]), (.obj [(tx "key", (.str (tx "43")))]), (.obj [(tx "key", (.str (tx "42")))]), (.obj [(tx "key", (.str (tx "41")))]), (.obj [(tx "key", (.str (tx "value")))]), (.obj [(tx "some", (.str (tx "value")))])]
#guard gives "$[?(!(@.key<=42))]" d60 [(.obj [(tx "key", (.float ⟨0x4045800000000000⟩))]), (.obj [(tx "key", (.float ⟨0x4045000346dc5d64⟩))]), (.obj [(tx "key", (.float ⟨0x4059000000000000⟩))]), (.obj [(tx "key", (.str (tx "43")))]), (.obj [(tx "key", (.str (tx "42")))]), (.obj [(tx "key", (.str (tx "41")))]), (.obj [(tx "key", (.str (tx "value")))]), (.obj [(tx "some", (.str (tx "value")))])]
#guard gives "$[?(@.key!=42)]" d60 [(.obj [(tx "key", (.float ⟨0x0000000000000000⟩))]), (.obj [(tx "key", (.float ⟨0xbff0000000000000⟩))]), (.obj [(tx "key", (.float ⟨0x4044800000000000⟩))]), (.obj [(tx "key", (.float ⟨0x4045800000000000⟩))]), (.obj [(tx "key", (.float ⟨0x4045000346dc5d64⟩))]), (.obj [(tx "key", (.float ⟨0x4044fffcb923a29c⟩))]), (.obj [(tx "key", (.float ⟨0x4059000000000000⟩))]), (.obj [(tx "key", (.str (tx "43")))]), (.obj [(tx "key", (.str (tx "41")))]), (.obj [(tx "key", (.str (tx "value")))]), (.obj [(tx "some", (.str (tx "value")))])]
private def d61 : V := (.arr [(.obj [(tx "key", (.float ⟨0x404e000000000000⟩))]), (.obj [(tx "key", (.float ⟨0x4049000000000000⟩))]), (.obj [(tx "key", (.float ⟨0x4024000000000000⟩))]), (.obj [(tx "key", (.float ⟨0xc049000000000000⟩))]), (.obj [(tx "key*2", (.float ⟨0x4059000000000000⟩))])])
#guard gives "$[?(@.key*2==100)]" d61 [(.obj [(tx "key", (.float ⟨0x4049000000000000⟩))])]
private def d62 : V := (.arr [(.arr [(.float ⟨0x3ff0000000000000⟩), (.float ⟨0x4000000000000000⟩)]), (.arr [(.float ⟨0x4008000000000000⟩), (.float ⟨0x4010000000000000⟩)]), (.arr [(.float ⟨0x4014000000000000⟩), (.float ⟨0x4018000000000000⟩)])])
private def d63 : V := (.obj [(tx "x", (.arr [(.arr [(.float ⟨0x3ff0000000000000⟩), (.float ⟨0x4000000000000000⟩)]), (.arr [(.float ⟨0x4008000000000000⟩), (.float ⟨0x4010000000000000⟩)]), (.arr [(.float ⟨0x4014000000000000⟩), (.float ⟨0x4018000000000000⟩)])])), (tx "y", (.arr [(.float ⟨0x4008000000000000⟩), (.float ⟨0x4010000000000000⟩), (.float ⟨0x4014000000000000⟩)]))])
private def d64 : V := (.obj [(tx "x", (.arr [(.arr [(.float ⟨0x3ff0000000000000⟩), (.float ⟨0x4000000000000000⟩)]), (.arr [(.float ⟨0x4008000000000000⟩), (.float ⟨0x4010000000000000⟩)]), (.arr [(.float ⟨0x4014000000000000⟩), (.float ⟨0x4018000000000000⟩)])])), (tx "y", (.arr [(.float ⟨0x4008000000000000⟩), (.float ⟨0x4010000000000000⟩), (.float ⟨0x4014000000000000⟩)]))])
private def d65 : V := (.arr [(.obj [(tx "some", (.str (tx "value")))])])
#guard gives "$[?(@.key>42)]" d65 []
private def d66 : V := (.arr [(.obj [(tx "some", (.str (tx "value")))])])
#guard gives "$[?(42 > @.key)]" d66 []
private def d67 : V := (.arr [(.obj [(tx "some", (.str (tx "value")))])])
#guard gives "$[?(@.other > @.key)]" d67 []
private def d68 : V := (.arr [(.obj [(tx "key1", (.float ⟨0x0000000000000000⟩)), (tx "key2", (.float ⟨0x4034000000000000⟩))]), (.obj [(tx "key1", (.float ⟨0x4024000000000000⟩)), (tx "key2", (.float ⟨0x4022000000000000⟩))])])
#guard gives "$[?(@.key1 > @.key2)]" d68 [(.obj [(tx "key1", (.float ⟨0x4024000000000000⟩)), (tx "key2", (.float ⟨0x4022000000000000⟩))])]
private def d69 : V := (.arr [(.obj [(tx "some", (.str (tx "value")))])])
#guard gives "$[?(@.key<=42)]" d69 []
private def d70 : V := (.arr [(.obj [(tx "some", (.str (tx "value")))])])
#guard gives "$[?(42 <= @.key)]" d70 []
private def d71 : V := (.arr [(.obj [(tx "some", (.str (tx "value")))])])
#guard gives "$[?(@.other <= @.key)]" d71 []
private def d72 : V := (.arr [(.obj [(tx "key1", (.float ⟨0x0000000000000000⟩)), (tx "key2", (.float ⟨0x4034000000000000⟩))]), (.obj [(tx "key1", (.float ⟨0x4024000000000000⟩)), (tx "key2", (.float ⟨0x4022000000000000⟩))])])
#guard gives "$[?(@.key1 <= @.key2)]" d72 [(.obj [(tx "key1", (.float ⟨0x0000000000000000⟩)), (tx "key2", (.float ⟨0x4034000000000000⟩))])]
private def d73 : V := (.arr [(.obj [(tx "some", (.str (tx "value")))])])
#guard gives "$[?(@.key>=42)]" d73 []
private def d74 : V := (.arr [(.obj [(tx "some", (.str (tx "value")))])])
#guard gives "$[?(42 >= @.key)]" d74 []
private def d75 : V := (.arr [(.obj [(tx "some", (.str (tx "value")))])])
#guard gives "$[?(@.other >= @.key)]" d75 []
private def d76 : V := (.arr [(.obj [(tx "key1", (.float ⟨0x0000000000000000⟩)), (tx "key2", (.float ⟨0x4034000000000000⟩))]), (.obj [(tx "key1", (.float ⟨0x4024000000000000⟩)), (tx "key2", (.float ⟨0x4022000000000000⟩))])])
#guard gives "$[?(@.key1 >= @.key2)]" d76 [(.obj [(tx "key1", (.float ⟨0x4024000000000000⟩)), (tx "key2", (.float ⟨0x4022000000000000⟩))])]
private def d77 : V := (.arr [(.obj [(tx "root", (.obj [(tx "id", (.float ⟨0x4024000000000000⟩)), (tx "second", (.arr [(.obj [(tx "names", (.arr [(.float ⟨0x4000000000000000⟩)])), (tx "complex", (.arr [(.obj [(tx "names", (.arr [(.float ⟨0x3ff0000000000000⟩)])), (tx "panels", (.arr [(.obj [(tx "result", (.arr [(.float ⟨0x3ff0000000000000⟩)]))]), (.obj [(tx "result", (.arr [(.float ⟨0x3ff0000000000000⟩), (.float ⟨0x4000000000000000⟩), (.float ⟨0x4008000000000000⟩), (.float ⟨0x4010000000000000⟩)]))]), (.obj [(tx "result", (.arr [(.float ⟨0x3ff0000000000000⟩)]))])]))])]))])]))]))]), (.obj [(tx "root", (.obj [(tx "id", (.float ⟨0x4034000000000000⟩)), (tx "second", (.arr [(.obj [(tx "names", (.arr [(.float ⟨0x4000000000000000⟩)])), (tx "complex", (.arr [(.obj [(tx "names", (.arr [(.float ⟨0x3ff0000000000000⟩)])), (tx "panels", (.arr [(.obj [(tx "result", (.arr [(.float ⟨0x3ff0000000000000⟩)]))]), (.obj [(tx "result", (.arr [(.float ⟨0x3ff0000000000000⟩), (.float ⟨0x4000000000000000⟩), (.float ⟨0x4008000000000000⟩), (.float ⟨0x4010000000000000⟩)]))]), (.obj [(tx "result", (.arr [(.float ⟨0x3ff0000000000000⟩)]))])]))])]))])]))]))])])
#guard gives "$..[?(@.result.length == 4)]" d77 [(.obj [(tx "result", (.arr [(.float ⟨0x3ff0000000000000⟩), (.float ⟨0x4000000000000000⟩), (.float ⟨0x4008000000000000⟩), (.float ⟨0x4010000000000000⟩)]))]), (.obj [(tx "result", (.arr [(.float ⟨0x3ff0000000000000⟩), (.float ⟨0x4000000000000000⟩), (.float ⟨0x4008000000000000⟩), (.float ⟨0x4010000000000000⟩)]))])]
#guard gives "$..[?(@.id == 10)]..[?(@.result.length == 4)]" d77 [(.obj [(tx "result", (.arr [(.float ⟨0x3ff0000000000000⟩), (.float ⟨0x4000000000000000⟩), (.float ⟨0x4008000000000000⟩), (.float ⟨0x4010000000000000⟩)]))])]
#guard gives "$..[?(@.result.length == 4)][?(@[0] == 3 || @[1] == 3 || @[2] == 3 || @[3] == 3)]" d77 [(.arr [(.float ⟨0x3ff0000000000000⟩), (.float ⟨0x4000000000000000⟩), (.float ⟨0x4008000000000000⟩), (.float ⟨0x4010000000000000⟩)]), (.arr [(.float ⟨0x3ff0000000000000⟩), (.float ⟨0x4000000000000000⟩), (.float ⟨0x4008000000000000⟩), (.float ⟨0x4010000000000000⟩)])]
private def d78 : V := (.obj [(tx "store", (.obj [(tx "book", (.arr [(.obj [(tx "category", (.str (tx "reference"))), (tx "author", (.str (tx "Nigel Rees"))), (tx "title", (.str (tx "Sayings of the Century"))), (tx "price", (.float ⟨0x4021e66666666666⟩))]), (.obj [(tx "category", (.str (tx "fiction"))), (tx "author", (.str (tx "Evelyn Waugh"))), (tx "title", (.str (tx "Sword of Honour"))), (tx "price", (.float ⟨0x4029fae147ae147b⟩))]), (.obj [(tx "category", (.str (tx "fiction"))), (tx "author", (.str (tx "Herman Melville"))), (tx "title", (.str (tx "Moby Dick"))), (tx "isbn", (.str (tx "0-553-21311-3"))), (tx "price", (.float ⟨0x4021fae147ae147b⟩))]), (.obj [(tx "category", (.str (tx "fiction"))), (tx "author", (.str (tx "J. R. R. Tolkien"))), (tx "title", (.str (tx "The Lord of the Rings"))), (tx "isbn", (.str (tx "0-395-19395-8"))), (tx "price", (.float ⟨0x4036fd70a3d70a3d⟩))])])), (tx "bicycle", (.obj [(tx "color", (.str (tx "red"))), (tx "price", (.float ⟨0x4033f33333333333⟩))]))]))])
#guard gives "$..book[?(@.price==8.99)].price" d78 [(.float ⟨0x4021fae147ae147b⟩)]
#guard gives "$..book[?(@.price==8.99)].price" d78 [(.float ⟨0x4021fae147ae147b⟩)]
private def d79 : V := (.arr [(.obj [(tx "key1", (.obj [(tx "a", (.obj [(tx "a", (.float ⟨0x4000000000000000⟩))]))])), (tx "key2", (.float ⟨0x3ff0000000000000⟩))]), (.obj [(tx "key1", (.obj [(tx "a", (.obj [(tx "a", (.float ⟨0x3ff0000000000000⟩))]))])), (tx "key2", (.float ⟨0x4000000000000000⟩))])])
private def d80 : V := (.arr [(.float ⟨0x0000000000000000⟩), (.float ⟨0x3ff0000000000000⟩), (.float ⟨0x4000000000000000⟩), (.float ⟨0x4008000000000000⟩), (.float ⟨0x4010000000000000⟩), (.float ⟨0x4014000000000000⟩)])
private def d81 : V := (.obj [(tx "store", (.obj [(tx "book", (.arr [(.obj [(tx "category", (.str (tx "reference"))), (tx "author", (.str (tx "Nigel Rees"))), (tx "title", (.str (tx "Sayings of the Century"))), (tx "price", (.float ⟨0x4021e66666666666⟩))]), (.obj [(tx "category", (.str (tx "fiction"))), (tx "author", (.str (tx "Evelyn Waugh"))), (tx "title", (.str (tx "Sword of Honour"))), (tx "price", (.float ⟨0x4029fae147ae147b⟩))]), (.obj [(tx "category", (.str (tx "fiction"))), (tx "author", (.str (tx "Herman Melville"))), (tx "title", (.str (tx "Moby Dick"))), (tx "isbn", (.str (tx "0-553-21311-3"))), (tx "price", (.float ⟨0x4021fae147ae147b⟩))]), (.obj [(tx "category", (.str (tx "fiction"))), (tx "author", (.str (tx "J. R. R. Tolkien"))), (tx "title", (.str (tx "The Lord of the Rings"))), (tx "isbn", (.str (tx "0-395-19395-8"))), (tx "price", (.float ⟨0x4036fd70a3d70a3d⟩))])])), (tx "bicycle", (.obj [(tx "color", (.str (tx "red"))), (tx "price", (.float ⟨0x4033f33333333333⟩))]))]))])
#guard gives "$.store.book[?(ceil(@.price) == 9)].title" d81 [(.str (tx "Sayings of the Century")), (.str (tx "Moby Dick"))]
#guard gives "$.store.book[?(ceil(@.price*100) == 899)].title" d81 [(.str (tx "Moby Dick"))]
#guard gives "$.store.book[?(floor(@.price) == 8)].title" d81 [(.str (tx "Sayings of the Century")), (.str (tx "Moby Dick"))]
#guard gives "$.store.book[?(floor(@.price*100) == 899)].title" d81 [(.str (tx "Moby Dick"))]
#guard gives "$.store.book[?(tokenize(@.author,'\\\\s+')[-1] == 'Tolkien')].title" d81 [(.str (tx "The Lord of the Rings"))]
private def d82 : V := (.obj [(tx "books", (.arr [(.obj [(tx "title", (.str (tx "A Wild Sheep Chase"))), (tx "author", (.str (tx "Haruki Murakami"))), (tx "price", (.float ⟨0x4036b851eb851eb8⟩))]), (.obj [(tx "title", (.str (tx "The Comedians"))), (tx "author", (.str (tx "Graham Greene"))), (tx "price", (.float ⟨0x4035fd70a3d70a3d⟩))]), (.obj [(tx "title", (.str (tx "The Night Watch"))), (tx "author", (.str (tx "Phillips, David Atlee")))])]))])
#guard gives "$.books[?(!contains(keys(@),'price'))].title" d82 [(.str (tx "The Night Watch"))]
private def d83 : V := (.obj [(tx "", (.float ⟨0x4045000000000000⟩)), (tx "''", (.float ⟨0x405ec00000000000⟩)), (tx "\"\"", (.float ⟨0x406bc00000000000⟩))])
#guard gives "$['']" d83 [(.float ⟨0x4045000000000000⟩)]
#guard gives "$[\"\"]" d83 [(.float ⟨0x4045000000000000⟩)]
private def d84 : V := (.obj [(tx "key", (.str (tx "value")))])
#guard rejected "$key"
#guard gives "$.key" d84 [(.str (tx "value"))]
private def d85 : V := (.obj [(tx "__L", (.bool true))])
#guard gives "$.__L" d85 [(.bool true)]
private def d86 : V := (.obj [(tx "!\x0d", (.bool true))])
#guard gives "$[\"!\\r\"]" d86 [(.bool true)]
private def d87 : V := (.obj [(tx "Y_1623", (.bool true))])
#guard gives "$.Y_1623" d87 [(.bool true)]
private def d88 : V := (.obj [(tx "x", (.bool true))])
#guard gives "$.x" d88 [(.bool true)]
private def d89 : V := (.obj [(tx "\tF캻", (.bool true))])
#guard gives "$[\"\\tF\\uCebb\"]" d89 [(.bool true)]
private def d90 : V := (.obj [(tx " \t", (.bool true))])
#guard gives "$[\" \\t\"]" d90 [(.bool true)]
private def d91 : V := (.obj [(tx " ", (.bool true))])
#guard gives "$[\" \"]" d91 [(.bool true)]
private def d92 : V := (.obj [(tx "v2", (.bool true))])
#guard gives "$.v2" d92 [(.bool true)]
private def d93 : V := (.obj [(tx "\t", (.bool true))])
#guard gives "$[\"\\t\"]" d93 [(.bool true)]
private def d94 : V := (.obj [(tx "_X", (.bool true))])
#guard gives "$._X" d94 [(.bool true)]
private def d95 : V := (.obj [(tx "\t4򆤕", (.bool true))])
#guard gives "$[\"\\t4\\ud9da\\udd15\"]" d95 [(.bool true)]
private def d96 : V := (.obj [(tx "v24_W", (.bool true))])
#guard gives "$.v24_W" d96 [(.bool true)]
private def d97 : V := (.obj [(tx "H", (.bool true))])
#guard gives "$[\"H\"]" d97 [(.bool true)]
private def d98 : V := (.obj [(tx "\x0c", (.bool true))])
#guard gives "$[\"\\f\"]" d98 [(.bool true)]
private def d99 : V := (.obj [(tx "E4", (.bool true))])
#guard gives "$[\"E4\"]" d99 [(.bool true)]
private def d100 : V := (.obj [(tx "!", (.bool true))])
#guard gives "$[\"!\"]" d100 [(.bool true)]
private def d101 : V := (.obj [(tx "tM", (.bool true))])
#guard gives "$.tM" d101 [(.bool true)]
private def d102 : V := (.obj [(tx " [", (.bool true))])
#guard gives "$[\" [\"]" d102 [(.bool true)]
private def d103 : V := (.obj [(tx "R!", (.bool true))])
#guard gives "$[\"R!\"]" d103 [(.bool true)]
private def d104 : V := (.obj [(tx "_6W", (.bool true))])
#guard gives "$._6W" d104 [(.bool true)]
private def d105 : V := (.obj [(tx "ꮡ\x0d", (.bool true))])
#guard gives "$[\"\\uaBA1\\r\"]" d105 [(.bool true)]
private def d106 : V := (.obj [(tx "tL7", (.bool true))])
#guard gives "$.tL7" d106 [(.bool true)]
private def d107 : V := (.obj [(tx "<<U\t", (.bool true))])
#guard gives "$[\"<<U\\t\"]" d107 [(.bool true)]
private def d108 : V := (.obj [(tx "믎﫻", (.bool true))])
#guard gives "$[\"\\ubBcE\\ufAfB\"]" d108 [(.bool true)]
private def d109 : V := (.obj [(tx "sNA_", (.bool true))])
#guard gives "$.sNA_" d109 [(.bool true)]
private def d110 : V := (.obj [(tx "9", (.bool true))])
#guard gives "$[\"9\"]" d110 [(.bool true)]
private def d111 : V := (.obj [(tx "\\\x08񂲃", (.bool true))])
#guard gives "$[\"\\\\\\b\\ud8cb\\udc83\"]" d111 [(.bool true)]
private def d112 : V := (.obj [(tx "r", (.bool true))])
#guard gives "$[\"r\"]" d112 [(.bool true)]
private def d113 : V := (.obj [(tx "Q", (.bool true))])
#guard gives "$.Q" d113 [(.bool true)]
private def d114 : V := (.obj [(tx "_Q__7GL8", (.bool true))])
#guard gives "$._Q__7GL8" d114 [(.bool true)]
private def d115 : V := (.obj [(tx "\\", (.bool true))])
#guard gives "$[\"\\\\\"]" d115 [(.bool true)]
private def d116 : V := (.obj [(tx "RR9_", (.bool true))])
#guard gives "$.RR9_" d116 [(.bool true)]
private def d117 : V := (.obj [(tx "\x0d\x0c:", (.bool true))])
#guard gives "$[\"\\r\\f:\"]" d117 [(.bool true)]
private def d118 : V := (.obj [(tx "r7", (.bool true))])
#guard gives "$.r7" d118 [(.bool true)]
private def d119 : V := (.obj [(tx "-", (.bool true))])
#guard gives "$[\"-\"]" d119 [(.bool true)]
private def d120 : V := (.obj [(tx "p9", (.bool true))])
#guard gives "$.p9" d120 [(.bool true)]
private def d121 : V := (.obj [(tx "__", (.bool true))])
#guard gives "$.__" d121 [(.bool true)]
private def d122 : V := (.obj [(tx "\x08\t", (.bool true))])
#guard gives "$[\"\\b\\t\"]" d122 [(.bool true)]
private def d123 : V := (.obj [(tx "O_", (.bool true))])
#guard gives "$.O_" d123 [(.bool true)]
private def d124 : V := (.obj [(tx "_r_8", (.bool true))])
#guard gives "$._r_8" d124 [(.bool true)]
private def d125 : V := (.obj [(tx "_j", (.bool true))])
#guard gives "$._j" d125 [(.bool true)]
private def d126 : V := (.obj [(tx ":", (.bool true))])
#guard gives "$[\":\"]" d126 [(.bool true)]
private def d127 : V := (.obj [(tx "\x0dB", (.bool true))])
#guard gives "$[\"\\rB\"]" d127 [(.bool true)]
private def d128 : V := (.obj [(tx "Obf", (.bool true))])
#guard gives "$.Obf" d128 [(.bool true)]
private def d129 : V := (.obj [(tx "\n", (.bool true))])
#guard gives "$[\"\\n\"]" d129 [(.bool true)]
private def d130 : V := (.obj [(tx "\x0c󥌳", (.bool true))])
#guard gives "$[\"\\f󥌳\"]" d130 [(.bool true)]
private def d131 : V := (.obj [(tx "\\俜", (.bool true))])
#guard gives "$[\"\\\\\\u4FDc\"]" d131 [(.bool true)]
private def d132 : V := (.obj [(tx "\x0d", (.bool true))])
#guard gives "$[\"\\r\"]" d132 [(.bool true)]
private def d133 : V := (.obj [(tx "m_", (.bool true))])
#guard gives "$.m_" d133 [(.bool true)]
private def d134 : V := (.obj [(tx "\x0d\x0cB ", (.bool true))])
#guard gives "$[\"\\r\\fB \"]" d134 [(.bool true)]
private def d135 : V := (.obj [(tx "+\"\"", (.bool true))])
#guard gives "$[\"+\\\"\\\"\"]" d135 [(.bool true)]
private def d136 : V := (.obj [(tx "Mg", (.bool true))])
#guard gives "$.Mg" d136 [(.bool true)]
private def d137 : V := (.obj [(tx "\"!/", (.bool true))])
#guard gives "$[\"\\\"!\\/\"]" d137 [(.bool true)]
private def d138 : V := (.obj [(tx "7\"", (.bool true))])
#guard gives "$[\"7\\\"\"]" d138 [(.bool true)]
private def d139 : V := (.obj [(tx "\\󞢤S", (.bool true))])
#guard gives "$[\"\\\\󞢤S\"]" d139 [(.bool true)]
private def d140 : V := (.obj [(tx "\"", (.bool true))])
#guard gives "$[\"\\\"\"]" d140 [(.bool true)]
private def d141 : V := (.obj [(tx "Kl", (.bool true))])
#guard gives "$.Kl" d141 [(.bool true)]
private def d142 : V := (.obj [(tx "\x08\x08", (.bool true))])
#guard gives "$[\"\\b\\b\"]" d142 [(.bool true)]
private def d143 : V := (.obj [(tx ">", (.bool true))])
#guard gives "$[\">\"]" d143 [(.bool true)]
private def d144 : V := (.obj [(tx "hvu", (.bool true))])
#guard gives "$.hvu" d144 [(.bool true)]
private def d145 : V := (.obj [(tx "; !", (.bool true))])
#guard gives "$[\"; !\"]" d145 [(.bool true)]
private def d146 : V := (.obj [(tx "hU", (.bool true))])
#guard gives "$.hU" d146 [(.bool true)]
private def d147 : V := (.obj [(tx "!I\n/", (.bool true))])
#guard gives "$[\"!I\\n\\/\"]" d147 [(.bool true)]
private def d148 : V := (.obj [(tx "", (.bool true))])
#guard gives "$[\"\\uEEbF\"]" d148 [(.bool true)]
private def d149 : V := (.obj [(tx "U)\t", (.bool true))])
#guard gives "$[\"U)\\t\"]" d149 [(.bool true)]
private def d150 : V := (.obj [(tx "fa0_9", (.bool true))])
#guard gives "$.fa0_9" d150 [(.bool true)]
private def d151 : V := (.obj [(tx "/", (.bool true))])
#guard gives "$[\"/\"]" d151 [(.bool true)]
private def d152 : V := (.obj [(tx "Gy", (.bool true))])
#guard gives "$.Gy" d152 [(.bool true)]
private def d153 : V := (.obj [(tx "\x08", (.bool true))])
#guard gives "$[\"\\b\"]" d153 [(.bool true)]
private def d154 : V := (.obj [(tx "<", (.bool true))])
#guard gives "$[\"<\"]" d154 [(.bool true)]
private def d155 : V := (.obj [(tx "\t", (.bool true))])
#guard gives "$[\"\\t\"]" d155 [(.bool true)]
private def d156 : V := (.obj [(tx "\t&\\\x0d", (.bool true))])
#guard gives "$[\"\\t&\\\\\\r\"]" d156 [(.bool true)]
private def d157 : V := (.obj [(tx "#", (.bool true))])
#guard gives "$[\"#\"]" d157 [(.bool true)]
private def d158 : V := (.obj [(tx "B__", (.bool true))])
#guard gives "$.B__" d158 [(.bool true)]
private def d159 : V := (.obj [(tx "\nS \n", (.bool true))])
#guard gives "$[\"\\nS \\n\"]" d159 [(.bool true)]
private def d160 : V := (.obj [(tx "Bp", (.bool true))])
#guard gives "$.Bp" d160 [(.bool true)]
private def d161 : V := (.obj [(tx ",\t;", (.bool true))])
#guard gives "$[\",\\t;\"]" d161 [(.bool true)]
private def d162 : V := (.obj [(tx "B_q", (.bool true))])
#guard gives "$.B_q" d162 [(.bool true)]
private def d163 : V := (.obj [(tx "/+\t\n\x08!Z", (.bool true))])
#guard gives "$[\"\\/+\\t\\n\\b!Z\"]" d163 [(.bool true)]
private def d164 : V := (.obj [(tx "󇟇\\ueFAc", (.bool true))])
#guard gives "$[\"󇟇\\\\ueFAc\"]" d164 [(.bool true)]
private def d165 : V := (.obj [(tx ":\x0c", (.bool true))])
#guard gives "$[\":\\f\"]" d165 [(.bool true)]
private def d166 : V := (.obj [(tx "/", (.bool true))])
#guard gives "$[\"\\/\"]" d166 [(.bool true)]
private def d167 : V := (.obj [(tx "_BW_6Hg_Gl", (.bool true))])
#guard gives "$._BW_6Hg_Gl" d167 [(.bool true)]
private def d168 : V := (.obj [(tx "􃰂", (.bool true))])
#guard gives "$[\"􃰂\"]" d168 [(.bool true)]
private def d169 : V := (.obj [(tx "zs1DC", (.bool true))])
#guard gives "$.zs1DC" d169 [(.bool true)]
private def d170 : V := (.obj [(tx "__434", (.bool true))])
#guard gives "$.__434" d170 [(.bool true)]
private def d171 : V := (.obj [(tx "󵅁", (.bool true))])
#guard gives "$[\"󵅁\"]" d171 [(.bool true)]
private def d172 : V := (.obj [(tx "Z_5", (.bool true))])
#guard gives "$.Z_5" d172 [(.bool true)]
private def d173 : V := (.obj [(tx "z_M_", (.bool true))])
#guard gives "$.z_M_" d173 [(.bool true)]
private def d174 : V := (.obj [(tx "YU_2", (.bool true))])
#guard gives "$.YU_2" d174 [(.bool true)]
private def d175 : V := (.obj [(tx "_0", (.bool true))])
#guard gives "$._0" d175 [(.bool true)]
private def d176 : V := (.obj [(tx "\x08+", (.bool true))])
#guard gives "$[\"\\b+\"]" d176 [(.bool true)]
private def d177 : V := (.obj [(tx "\"", (.bool true))])
#guard gives "$[\"\\\"\"]" d177 [(.bool true)]
private def d178 : V := (.obj [(tx "D7", (.bool true))])
#guard gives "$.D7" d178 [(.bool true)]
private def d179 : V := (.obj [(tx "_62L", (.bool true))])
#guard gives "$._62L" d179 [(.bool true)]
private def d180 : V := (.obj [(tx "\tK\t", (.bool true))])
#guard gives "$[\"\\tK\\t\"]" d180 [(.bool true)]
private def d181 : V := (.obj [(tx "\n\\\x0c", (.bool true))])
#guard gives "$[\"\\n\\\\\\f\"]" d181 [(.bool true)]
private def d182 : V := (.obj [(tx "I_", (.bool true))])
#guard gives "$.I_" d182 [(.bool true)]
private def d183 : V := (.obj [(tx "W_a0_", (.bool true))])
#guard gives "$.W_a0_" d183 [(.bool true)]
private def d184 : V := (.obj [(tx "BQ", (.bool true))])
#guard gives "$.BQ" d184 [(.bool true)]
private def d185 : V := (.obj [(tx "\tX$ꮻ", (.bool true))])
#guard gives "$[\"\\tX$\\uABBb\"]" d185 [(.bool true)]
private def d186 : V := (.obj [(tx "Z9", (.bool true))])
#guard gives "$.Z9" d186 [(.bool true)]
private def d187 : V := (.obj [(tx "\x08%\"򞄏", (.bool true))])
#guard gives "$[\"\\b%\\\"򞄏\"]" d187 [(.bool true)]
private def d188 : V := (.obj [(tx "_F", (.bool true))])
#guard gives "$._F" d188 [(.bool true)]
private def d189 : V := (.obj [(tx "!,", (.bool true))])
#guard gives "$[\"!,\"]" d189 [(.bool true)]
private def d190 : V := (.obj [(tx "\"!", (.bool true))])
#guard gives "$[\"\\\"!\"]" d190 [(.bool true)]
private def d191 : V := (.obj [(tx "Hh", (.bool true))])
#guard gives "$.Hh" d191 [(.bool true)]
private def d192 : V := (.obj [(tx "&", (.bool true))])
#guard gives "$[\"&\"]" d192 [(.bool true)]
private def d193 : V := (.obj [(tx "9\x0d\\R", (.bool true))])
#guard gives "$[\"9\\r\\\\R\"]" d193 [(.bool true)]
private def d194 : V := (.obj [(tx "M_k", (.bool true))])
#guard gives "$.M_k" d194 [(.bool true)]
private def d195 : V := (.obj [(tx "!\x08\n󑩒\"\"", (.bool true))])
#guard gives "$[\"!\\b\\n󑩒\\\"\\\"\"]" d195 [(.bool true)]
private def d196 : V := (.obj [(tx "6", (.bool true))])
#guard gives "$[\"6\"]" d196 [(.bool true)]
private def d197 : V := (.obj [(tx "_7", (.bool true))])
#guard gives "$._7" d197 [(.bool true)]
private def d198 : V := (.obj [(tx "0", (.bool true))])
#guard gives "$[\"0\"]" d198 [(.bool true)]
private def d199 : V := (.obj [(tx "\\8\\", (.bool true))])
#guard gives "$[\"\\\\8\\\\\"]" d199 [(.bool true)]
private def d200 : V := (.obj [(tx "b7eo", (.bool true))])
#guard gives "$.b7eo" d200 [(.bool true)]
private def d201 : V := (.obj [(tx "xIUo9", (.bool true))])
#guard gives "$.xIUo9" d201 [(.bool true)]
private def d202 : V := (.obj [(tx "5", (.bool true))])
#guard gives "$[\"5\"]" d202 [(.bool true)]
private def d203 : V := (.obj [(tx "?", (.bool true))])
#guard gives "$[\"?\"]" d203 [(.bool true)]
private def d204 : V := (.obj [(tx "sU", (.bool true))])
#guard gives "$.sU" d204 [(.bool true)]
private def d205 : V := (.obj [(tx "VH2&H\\/", (.bool true))])
#guard gives "$[\"VH2&H\\\\\\/\"]" d205 [(.bool true)]
private def d206 : V := (.obj [(tx "_C", (.bool true))])
#guard gives "$._C" d206 [(.bool true)]
private def d207 : V := (.obj [(tx "_", (.bool true))])
#guard gives "$._" d207 [(.bool true)]
private def d208 : V := (.obj [(tx "<\t", (.bool true))])
#guard gives "$[\"<\\t\"]" d208 [(.bool true)]
private def d209 : V := (.obj [(tx "𝄞", (.bool true))])
#guard gives "$[\"\\uD834\\uDD1E\"]" d209 [(.bool true)]
private def d210 : V := (.obj [(tx "foo", (.arr [(.str (tx "zero")), (.str (tx "one")), (.str (tx "two"))]))])
#guard gives "$.foo.1" d210 [(.str (tx "one"))]
private def d211 : V := (.obj [(tx "0", (.str (tx "value")))])
#guard gives "$[0]" d211 [(.str (tx "value"))]
private def d212 : V := (.obj [(tx "foo", (.obj [(tx "bar", (.arr [(.str (tx "zero")), (.str (tx "one")), (.str (tx "two"))]))]))])
#guard gives "$.foo.bar[0]" d212 [(.str (tx "zero"))]
#guard gives "$.foo.bar[1]" d212 [(.str (tx "one"))]
#guard gives "$.foo.bar[2]" d212 [(.str (tx "two"))]
#guard gives "$.foo.bar[3]" d212 []
#guard gives "$.foo.bar[-1]" d212 [(.str (tx "two"))]
#guard gives "$.foo.bar[-2]" d212 [(.str (tx "one"))]
#guard gives "$.foo.bar[-3]" d212 [(.str (tx "zero"))]
#guard gives "$.foo.bar[-4]" d212 []
private def d213 : V := (.obj [(tx "foo", (.arr [(.obj [(tx "bar", (.str (tx "one")))]), (.obj [(tx "bar", (.str (tx "two")))]), (.obj [(tx "bar", (.str (tx "three")))]), (.obj [(tx "notbar", (.str (tx "four")))])]))])
#guard gives "$.foo.bar" d213 []
#guard gives "$.foo[0].bar" d213 [(.str (tx "one"))]
#guard gives "$.foo[1].bar" d213 [(.str (tx "two"))]
#guard gives "$.foo[2].bar" d213 [(.str (tx "three"))]
#guard gives "$.foo[3].notbar" d213 [(.str (tx "four"))]
#guard gives "$.foo[3].bar" d213 []
#guard gives "$.foo[0]" d213 [(.obj [(tx "bar", (.str (tx "one")))])]
#guard gives "$.foo[1]" d213 [(.obj [(tx "bar", (.str (tx "two")))])]
#guard gives "$.foo[2]" d213 [(.obj [(tx "bar", (.str (tx "three")))])]
#guard gives "$.foo[3]" d213 [(.obj [(tx "notbar", (.str (tx "four")))])]
#guard gives "$.foo[4]" d213 []
private def d214 : V := (.arr [(.str (tx "one")), (.str (tx "two")), (.str (tx "three"))])
#guard gives "$[0]" d214 [(.str (tx "one"))]
#guard gives "$[1]" d214 [(.str (tx "two"))]
#guard gives "$[2]" d214 [(.str (tx "three"))]
#guard gives "$[-1]" d214 [(.str (tx "three"))]
#guard gives "$[-2]" d214 [(.str (tx "two"))]
#guard gives "$[-3]" d214 [(.str (tx "one"))]
private def d215 : V := (.arr [(.str (tx "first")), (.str (tx "second")), (.str (tx "third"))])
#guard gives "$[-1]" d215 [(.str (tx "third"))]
private def d216 : V := (.obj [(tx "object", (.obj [(tx "key", (.str (tx "value"))), (tx "array", (.arr [(.obj [(tx "key", (.str (tx "something")))]), (.obj [(tx "key", (.obj [(tx "key", (.str (tx "russian dolls")))]))])]))])), (tx "key", (.str (tx "top")))])
#guard gives "$..key" d216 [(.str (tx "top")), (.str (tx "value")), (.str (tx "something")), (.obj [(tx "key", (.str (tx "russian dolls")))]), (.str (tx "russian dolls"))]
private def d217 : V := (.arr [(.str (tx "first")), (.obj [(tx "key", (.arr [(.str (tx "first nested")), (.obj [(tx "more", (.arr [(.obj [(tx "nested", (.arr [(.str (tx "deepest")), (.str (tx "second"))]))]), (.arr [(.str (tx "more")), (.str (tx "values"))])]))])]))])])
#guard gives "$..[0]" d217 [(.str (tx "first")), (.str (tx "first nested")), (.obj [(tx "nested", (.arr [(.str (tx "deepest")), (.str (tx "second"))]))]), (.str (tx "deepest")), (.str (tx "more"))]
private def d218 : V := (.obj [(tx "key", (.str (tx "value"))), (tx "another key", (.obj [(tx "complex", (.str (tx "string"))), (tx "primitives", (.arr [(.float ⟨0x0000000000000000⟩), (.float ⟨0x3ff0000000000000⟩)]))]))])
#guard gives "$..*" d218 [(.str (tx "value")), (.obj [(tx "complex", (.str (tx "string"))), (tx "primitives", (.arr [(.float ⟨0x0000000000000000⟩), (.float ⟨0x3ff0000000000000⟩)]))]), (.str (tx "string")), (.arr [(.float ⟨0x0000000000000000⟩), (.float ⟨0x3ff0000000000000⟩)]), (.float ⟨0x0000000000000000⟩), (.float ⟨0x3ff0000000000000⟩)]
private def d219 : V := (.obj [(tx "foo", (.arr [(.obj [(tx "a", (.str (tx "bar")))]), (.obj [(tx "b", (.str (tx "baz")))]), (.obj [(tx "b", (.str (tx "qux")))])]))])
#guard gives "$..b" d219 [(.str (tx "baz")), (.str (tx "qux"))]
private def d220 : V := (.arr [(.arr [(.float ⟨0x3ff0000000000000⟩), (.float ⟨0x4000000000000000⟩), (.float ⟨0x4008000000000000⟩)]), (.arr [(.float ⟨0x4010000000000000⟩), (.float ⟨0x4014000000000000⟩), (.float ⟨0x4018000000000000⟩)])])
#guard rejected "$.."
private def d221 : V := (.arr [(.obj [(tx "a", (.obj [(tx "b", (.str (tx "c")))]))]), (.arr [(.float ⟨0x0000000000000000⟩), (.float ⟨0x3ff0000000000000⟩)])])
#guard rejected "$.."
private def d222 : V := (.arr [(.obj [(tx "name", (.str (tx "hullo world")))]), (.obj [(tx "name", (.str (tx "hello world")))]), (.obj [(tx "name", (.str (tx "yes hello world")))]), (.obj [(tx "name", (.str (tx "HELLO WORLD")))]), (.obj [(tx "name", (.str (tx "good bye")))])])
#guard gives "$[?(@.name=~/hello.* /)]" d222 [(.obj [(tx "name", (.str (tx "hello world")))]), (.obj [(tx "name", (.str (tx "yes hello world")))])]
#guard rejected "$[?(@.name=~/hello.* /i)]"
private def d223 : V := (.obj [(tx "store", (.obj [(tx "book", (.arr [(.obj [(tx "category", (.str (tx "reference"))), (tx "author", (.str (tx "Nigel Rees"))), (tx "title", (.str (tx "Sayings of the Century"))), (tx "price", (.float ⟨0x4021e66666666666⟩))]), (.obj [(tx "category", (.str (tx "fiction"))), (tx "author", (.str (tx "Evelyn Waugh"))), (tx "title", (.str (tx "Sword of Honour"))), (tx "price", (.float ⟨0x4029fae147ae147b⟩))]), (.obj [(tx "category", (.str (tx "fiction"))), (tx "author", (.str (tx "Herman Melville"))), (tx "title", (.str (tx "Moby Dick"))), (tx "isbn", (.str (tx "0-553-21311-3"))), (tx "price", (.float ⟨0x4021fae147ae147b⟩))]), (.obj [(tx "category", (.str (tx "fiction"))), (tx "author", (.str (tx "J. R. R. Tolkien"))), (tx "title", (.str (tx "The Lord of the Rings"))), (tx "isbn", (.str (tx "0-395-19395-8"))), (tx "price", (.float ⟨0x4036fd70a3d70a3d⟩))])])), (tx "bicycle", (.obj [(tx "color", (.str (tx "red"))), (tx "price", (.float ⟨0x4033f33333333333⟩))]))]))])
#guard gives "$.store.book[ ?(@.category =~ /fic.*?/)].author" d223 [(.str (tx "Evelyn Waugh")), (.str (tx "Herman Melville")), (.str (tx "J. R. R. Tolkien"))]
#guard gives "$.store.book[ ?(@.author =~ /Evelyn.*?/)].author" d223 [(.str (tx "Evelyn Waugh"))]
#guard gives "$.store.book[ ?(!(@.author =~ /Evelyn.*?/))].author" d223 [(.str (tx "Nigel Rees")), (.str (tx "Herman Melville")), (.str (tx "J. R. R. Tolkien"))]
private def d224 : V := (.arr [(.float ⟨0x4000000000000000⟩), (.str (tx "a")), (.float ⟨0x4010000000000000⟩), (.float ⟨0x4014000000000000⟩), (.float ⟨0x4059000000000000⟩), (.str (tx "nice"))])
#guard gives "$[-4:-5]" d224 []
#guard gives "$[-4:-4]" d224 []
#guard gives "$[-4:-3]" d224 [(.float ⟨0x4010000000000000⟩)]
#guard gives "$[-4:1]" d224 []
private def d225 : V := (.arr [(.str (tx "first")), (.str (tx "second")), (.str (tx "third")), (.str (tx "forth")), (.str (tx "fifth"))])
#guard gives "$[-1]" d225 [(.str (tx "fifth"))]
#guard gives "$[-2:]" d225 [(.str (tx "forth")), (.str (tx "fifth"))]
#guard gives "$[-2:]" d225 [(.str (tx "forth")), (.str (tx "fifth"))]
#guard gives "$[:-2]" d225 [(.str (tx "first")), (.str (tx "second")), (.str (tx "third"))]
#guard gives "$[::-1]" d225 [(.str (tx "fifth")), (.str (tx "forth")), (.str (tx "third")), (.str (tx "second")), (.str (tx "first"))]
#guard gives "$[1::-1]" d225 [(.str (tx "second")), (.str (tx "first"))]
#guard gives "$[:-3:-1]" d225 [(.str (tx "fifth")), (.str (tx "forth"))]
#guard gives "$[-3::-1]" d225 [(.str (tx "third")), (.str (tx "second")), (.str (tx "first"))]
#guard gives "$[2]" d225 [(.str (tx "third"))]
#guard (evalT "$[0:3:0]" d225).isSome
#guard gives "$[3:0:-2]" d225 [(.str (tx "forth")), (.str (tx "second"))]
#guard gives "$[7:3:-1]" d225 [(.str (tx "fifth"))]
#guard gives "$[0:3:-2]" d225 []
#guard gives "$[0:3:-2]" d225 []
#guard gives "$[::-2]" d225 [(.str (tx "fifth")), (.str (tx "third")), (.str (tx "first"))]
#guard gives "$[1:]" d225 [(.str (tx "second")), (.str (tx "third")), (.str (tx "forth")), (.str (tx "fifth"))]
#guard gives "$[3::-1]" d225 [(.str (tx "forth")), (.str (tx "third")), (.str (tx "second")), (.str (tx "first"))]
#guard gives "$[:2]" d225 [(.str (tx "first")), (.str (tx "second"))]
private def d226 : V := (.arr [(.str (tx "first")), (.str (tx "second"))])
#guard gives "$[:]" d226 [(.str (tx "first")), (.str (tx "second"))]
#guard gives "$[::]" d226 [(.str (tx "first")), (.str (tx "second"))]
private def d227 : V := (.arr [(.str (tx "first")), (.str (tx "second")), (.str (tx "third")), (.str (tx "forth")), (.str (tx "fifth"))])
#guard gives "$[1:3]" d227 [(.str (tx "second")), (.str (tx "third"))]
#guard gives "$[0:5]" d227 [(.str (tx "first")), (.str (tx "second")), (.str (tx "third")), (.str (tx "forth")), (.str (tx "fifth"))]
#guard gives "$[2:113667776004]" d227 [(.str (tx "third")), (.str (tx "forth")), (.str (tx "fifth"))]
#guard gives "$[2:-113667776004:-1]" d227 [(.str (tx "third")), (.str (tx "second")), (.str (tx "first"))]
#guard gives "$[-113667776004:2]" d227 [(.str (tx "first")), (.str (tx "second"))]
#guard gives "$[113667776004:2:-1]" d227 [(.str (tx "fifth")), (.str (tx "forth"))]
private def d228 : V := (.arr [(.str (tx "first")), (.str (tx "second")), (.str (tx "third"))])
#guard gives "$[7:10]" d228 []
#guard gives "$[1:10]" d228 [(.str (tx "second")), (.str (tx "third"))]
private def d229 : V := (.obj [(tx ":", (.float ⟨0x4045000000000000⟩)), (tx "more", (.str (tx "string"))), (tx "a", (.float ⟨0x3ff0000000000000⟩)), (tx "b", (.float ⟨0x4000000000000000⟩)), (tx "c", (.float ⟨0x4008000000000000⟩)), (tx "1:3", (.str (tx "nice")))])
#guard gives "$[1:3]" d229 []
private def d230 : V := (.arr [(.obj [(tx "key", (.str (tx "ey")))]), (.obj [(tx "key", (.str (tx "bee")))]), (.obj [(tx "key", (.str (tx "see")))])])
#guard gives "$[0:2].key" d230 [(.str (tx "ey")), (.str (tx "bee"))]
private def d231 : V := (.obj [(tx "foo", (.arr [(.obj [(tx "a", (.float ⟨0x3ff0000000000000⟩))]), (.obj [(tx "a", (.float ⟨0x4000000000000000⟩))]), (.obj [(tx "a", (.float ⟨0x4008000000000000⟩))])])), (tx "bar", (.arr [(.obj [(tx "a", (.obj [(tx "b", (.float ⟨0x3ff0000000000000⟩))]))]), (.obj [(tx "a", (.obj [(tx "b", (.float ⟨0x4000000000000000⟩))]))]), (.obj [(tx "a", (.obj [(tx "b", (.float ⟨0x4008000000000000⟩))]))])])), (tx "baz", (.float ⟨0x4049000000000000⟩))])
#guard gives "$.foo[:2].a" d231 [(.float ⟨0x3ff0000000000000⟩), (.float ⟨0x4000000000000000⟩)]
#guard gives "$.foo[:2].b" d231 []
#guard gives "$.foo[:2].a.b" d231 []
#guard gives "$.bar[::-1].a.b" d231 [(.float ⟨0x4008000000000000⟩), (.float ⟨0x4000000000000000⟩), (.float ⟨0x3ff0000000000000⟩)]
#guard gives "$.bar[:2].a.b" d231 [(.float ⟨0x3ff0000000000000⟩), (.float ⟨0x4000000000000000⟩)]
#guard gives "$.baz[:2].a" d231 []
private def d232 : V := (.obj [(tx "type", (.str (tx "object")))])
#guard rejected ""
#guard rejected " "
private def d233 : V := (.obj [(tx "type", (.str (tx "object")))])
#guard rejected "$foo"
private def d234 : V := (.obj [(tx "type", (.str (tx "object")))])
#guard gives "$.foo.bar" d234 []
#guard rejected "foo.1"
#guard gives "$.foo.1" d234 []
private def d235 : V := (.arr [(.obj [(tx "key", (.float ⟨0x0000000000000000⟩))]), (.obj [(tx "key", (.float ⟨0x4045000000000000⟩))])])
#guard rejected "$[?(@.key=42)]"
private def d236 : V := (.obj [(tx "key1", (.str (tx "value1"))), (tx "key2", (.str (tx "value2")))])
#guard (evalT "$[key1]" d236).isSome
#guard (evalT "$['key1',key2]" d236).isSome
private def d237 : V := (.obj [(tx "type", (.str (tx "object")))])
#guard gives "$.foo" d237 []
#guard gives "$[\"foo\"]" d237 []
#guard gives "$[\"\\\\\"]" d237 []
#guard rejected "$[\"\\u\"]"
private def d238 : V := (.arr [(.float ⟨0x0000000000000000⟩), (.float ⟨0x3ff0000000000000⟩), (.float ⟨0x4000000000000000⟩), (.float ⟨0x4008000000000000⟩), (.float ⟨0x4010000000000000⟩), (.float ⟨0x4014000000000000⟩)])
private def d239 : V := (.arr [(.str (tx "a"))])
#guard gives "$[0,0]" d239 [(.str (tx "a")), (.str (tx "a"))]
private def d240 : V := (.arr [(.str (tx "string")), (.float ⟨0x4045000000000000⟩), (.obj [(tx "key", (.str (tx "value")))]), (.arr [(.float ⟨0x0000000000000000⟩), (.float ⟨0x3ff0000000000000⟩)])])
#guard gives "$[*]" d240 [(.str (tx "string")), (.float ⟨0x4045000000000000⟩), (.obj [(tx "key", (.str (tx "value")))]), (.arr [(.float ⟨0x0000000000000000⟩), (.float ⟨0x3ff0000000000000⟩)])]
private def d241 : V := (.arr [(.obj [(tx "bar", (.arr [(.float ⟨0x4045000000000000⟩)]))])])
#guard gives "$[*].bar[*]" d241 [(.float ⟨0x4045000000000000⟩)]
private def d242 : V := (.arr [(.str (tx "string")), (.float ⟨0x4045000000000000⟩), (.obj [(tx "key", (.str (tx "value")))]), (.arr [(.float ⟨0x0000000000000000⟩), (.float ⟨0x3ff0000000000000⟩)])])
#guard gives "$.*" d242 [(.str (tx "string")), (.float ⟨0x4045000000000000⟩), (.obj [(tx "key", (.str (tx "value")))]), (.arr [(.float ⟨0x0000000000000000⟩), (.float ⟨0x3ff0000000000000⟩)])]
private def d243 : V := (.arr [(.float ⟨0x4044000000000000⟩), .null, (.float ⟨0x4045000000000000⟩)])
#guard gives "$[*]" d243 [(.float ⟨0x4044000000000000⟩), .null, (.float ⟨0x4045000000000000⟩)]
private def d244 : V := (.obj [(tx "some", (.str (tx "string"))), (tx "int", (.float ⟨0x4045000000000000⟩)), (tx "object", (.obj [(tx "key", (.str (tx "value")))])), (tx "array", (.arr [(.float ⟨0x0000000000000000⟩), (.float ⟨0x3ff0000000000000⟩)]))])
#guard gives "$[*]" d244 [(.str (tx "string")), (.float ⟨0x4045000000000000⟩), (.obj [(tx "key", (.str (tx "value")))]), (.arr [(.float ⟨0x0000000000000000⟩), (.float ⟨0x3ff0000000000000⟩)])]
private def d245 : V := (.arr [(.obj [(tx "bar", (.arr [(.obj [(tx "baz", (.str (tx "hello")))])]))])])
#guard gives "$[*].bar[*].baz" d245 [(.str (tx "hello"))]
private def d246 : V := (.arr [(.str (tx "string")), (.float ⟨0x4045000000000000⟩), (.obj [(tx "key", (.str (tx "value")))]), (.arr [(.float ⟨0x0000000000000000⟩), (.float ⟨0x3ff0000000000000⟩)])])
#guard gives "$.*" d246 [(.str (tx "string")), (.float ⟨0x4045000000000000⟩), (.obj [(tx "key", (.str (tx "value")))]), (.arr [(.float ⟨0x0000000000000000⟩), (.float ⟨0x3ff0000000000000⟩)])]
private def d247 : V := (.obj [(tx "some", (.str (tx "string"))), (tx "int", (.float ⟨0x4045000000000000⟩)), (tx "object", (.obj [(tx "key", (.str (tx "value")))])), (tx "array", (.arr [(.float ⟨0x0000000000000000⟩), (.float ⟨0x3ff0000000000000⟩)]))])
#guard gives "$.*" d247 [(.str (tx "string")), (.float ⟨0x4045000000000000⟩), (.obj [(tx "key", (.str (tx "value")))]), (.arr [(.float ⟨0x0000000000000000⟩), (.float ⟨0x3ff0000000000000⟩)])]
end JP.Test
