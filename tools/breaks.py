# id -> (edit text or None, claim broken)
B={
'cl1':('','C01: a course could be counted twice'),'cl2':('','C02: allow_claimed requests would use a course up'),
'cl3':('','C03: a refused request would change the table'),'cl4':('','C04/C01: an unlisted path could count a used course'),
'cl5':('','C01/C04: the multicountable list would be looked up by the wrong key'),'cl6':('','C05: trial claims would leak'),
'cl7':('','C05: a trial would see outside claims'),'cl8':('','C03: granted claims would be forgotten'),'cl9':('','C05: fresh context would share claims'),
'ex1':('','C08'),'ex2':('','C08'),'ex3':('','C06/C08'),'ex4':('','C06: the cache would answer for other paths'),'ex5':('','C07: first exception wins'),
'ex6':('','C07: first exception wins'),'ex7':('','C07: every block acts'),'ex8':('','C08: an exception is loaded as it was recorded'),'ex9':('','C08'),'ex10':('','C07'),
'ru1':('','C26: a course in progress is acceptable whatever its grade'),'ru2':('','C26: the minimum grade itself is enough'),'ru3':('','C25: blocked courses are not used'),
'ru4':('','C26: the grade option is asked for'),'ru5':('','C25: blocked courses are not used'),'ru6':('','C26: only forced insertions are forced'),'ru7':('','C38: a waiver reaches its rule'),
'ru8':('','C27: a query without include_failed only selects courses of the transcript'),'ru9':('','C25'),'ru10':('','C25'),'ru11':('','C27: only courses passing the filter are selected'),
'ru12':('','C27: an inserted course appears once'),'ru13':('','C28/C29: inserted courses take part in the search'),'ru14':('','C09: the limits of a query are respected'),
'ru15':('','C29: the credit shortcut is complete'),'ru16':('','C46: the largest of several counts decides the sizes'),'ru17':('','C54: every choice of parts is tried'),
'ru18':('','C23: each child appears in each solution'),'ru19':('','C53: only courses of rules that must all be met are reserved'),'ru20':('','C53: a class is reserved only if it is the only match'),
'ru21':('','C25: a block reaches the rules beneath'),'ru22':('','C53: reserved classes are kept from every query beneath'),'ru23':('','C38'),'ru24':('','C38'),'ru25':('','C36'),
'ru26':('','none: a course rule that takes its course from claimed ones is reported met by no theorem, and the code never solves it; no claim is falsified'),
'ru27':('','C55: a rule the student could fulfil has potential'),'ru28':('','C55: a rule with an exception beneath has potential'),
'so1':('','C01/C37'),'so2':('','C01/C37: only forced insertions may count a used course'),'so3':('',''),'so4':('','C37: refused courses are not counted'),'so5':('','C25'),
'so6':('','C37: the claims of a query are recorded'),'so7':('','C52: assertions are evaluated before the query passes'),'so8':('','C37: siblings see each other\'s claims'),'so9':('','C21: the first of equally good solutions wins'),
'so10':('','C21: the search stops at a complete solution'),'so11':('','C37: claims of independently solved parts are kept'),'so12':('','C24'),'so13':('','C24'),'so14':('','C24'),'so15':('','C23: each child appears once'),
'so16':('a waived proficiency is reported Done','C38: a waived rule is reported Waived'),'so17':('','C50/C52: the assertions of a count rule see the courses of its parts'),'so18':('','C24: all pairs are compared'),
'li1':('','C09'),'li2':('','C11'),'li3':('','C10: forced courses are not limited'),'li4':('','C12'),'li5':('','C12'),'li6':('','C10'),'li7':('','C09'),'li8':('','C09'),'li9':('','C09'),'li10':('','C12/C45'),'li11':('','C12'),'li12':('','C11'),
'lp1':('','C13'),'lp2':('','C13'),'lp3':('','C13'),'lp4':('','C13'),'co1':('','C14'),'co2':('','C14'),'co3':('','C14'),'co4':('','C12/C45'),
'pa1':('','C15'),'pa2':('','C15'),'pa3':('','C15'),'pa4':('','C15'),'pa5':('','C15'),
'op1':('','C34'),'op2':('','C34'),'op3':('','C16'),'op4':('','C16: a missing value compared with a missing value'),'op5':('','C16'),'op6':('','C16'),'op7':('','C16'),'op8':('','C16: the cache is transparent'),
'pr1':('','C17'),'pr2':('','C17'),'pr3':('','C17'),'pr4':('','C17'),'pr5':('','C17'),'pr6':('','C17'),'pr7':('','C17: each key reads its field of the record'),'pr8':('','C17'),'pr9':('','C17'),'pr10':('','C17'),
'as1':('','C56: a broken "at most" is a failed invariant'),'as2':('','C56'),'as3':('','C56: Done means met without courses in progress'),'as4':('','C56'),'as5':('','C56: registered courses are not current'),
'as6':('','C57: a course inserted at an assertion is counted'),'as7':('','C57: a course blocked at an assertion is not counted'),'as8':('','C18'),
'as9':('','C52/C58: an assertion whose condition does not hold asks for nothing'),'as10':('','C28'),'as11':('','none: one more size is tried than needed, no claim is falsified'),
'as12':('','C52: what is counted'),'as13':('','C28: what is counted is distinct'),'as14':('','C31'),'as15':('','C31'),'as16':('','C52: distinct buckets are counted'),'as17':('','C52: the subject with most credits is used'),'as18':('','C52: CH/BI courses belong to their subject'),
'as19':('','C38/C57: a waived assertion is left as it is'),'as20':('','C52: averages'),
'tr1':('','C19'),'tr2':('','C61: a course registered for a later term is not reported as current'),'tr3':('','C20'),'tr4':('','C61: the state of a query is that of its worst assertion'),'tr5':('','C37/C25: an audited requirement reports no claims'),
'tr6':('','C60: courses of an audited requirement are not in the GPA'),'tr7':('','C26'),'tr8':('','C18'),'tr9':('','C18'),'tr10':('','C38'),'tr11':('','C36'),'tr12':('','C35'),
'tr13':('','C61: a current course ranks above a registered one'),'tr14':('','C61: an insertion that was refused does not waive its rule'),'tr15':('','C20: a failed assertion of a count rule is shown'),'tr16':('','C60: courses of refused claims are not matched'),'tr17':('','C18'),
'ar1':('','C37'),'ar2':('','C11/C59: every limited transcript is tried'),'ar3':('','C21'),'ar4':('the result is sent again although selected results were printed','C22'),'ar5':('','C22'),'ar6':('','C21'),'ar7':('','C22/C21: which solutions are audited'),'ar8':('','C22'),
'ar9':('','C50: common requirements look at the courses of the major'),'ar10':('','C60: courses of the common requirements do not count again in the GPA'),'ar11':('','C50'),'ar12':('','C60: the GPA of a degree is over all courses'),'ar13':('','C10/C37: only forced insertions bypass limits'),
'ar14':('failed courses are not available','C37: courses available to the audit'),'ar15':('','C62: the estimate is at least one'),'ar16':('the estimate of a query that does not claim leaves out one per transcript','none: the estimate stays an upper bound'),'ar17':('a waived area reports the state of its rule','C38'),
'tc1':('','C33'),'tc2':('credit table looked up by bare name','C33'),'tc3':('','C32'),'tc4':('failed courses never kept','C30'),'tc5':('courses being repeated are kept','C30'),'tc6':('','C30'),'tc7':('','C30'),'tc8':('','C31/C33'),'tc9':('the pandemic term is another one','C32: courses of spring 2020 are marked'),'tc10':('','C30'),'tc11':('','C33'),
'se1':('','C40'),'se2':('','C40'),'se3':('','C40'),'se4':('','C41'),'se5':('','C41'),'se6':('catalog not compared','C41'),'se7':('','C39'),'se8':('','C39'),'se9':('','C39'),'se10':('','C39'),'se11':('','C42'),'se12':('the filter of the command is ignored','C42'),
'se13':('','C42'),'se14':('','C42: each area is queued with the catalog it is declared in'),'se15':('','C40'),'se16':('a result equal to the new one is looked for without catalog and text','C40: other results are untouched'),'se17':('statements of an aborted transaction seem to succeed','C42'),
'fi1':('','C43'),'fi2':('','C43'),'du1':('minutes modulo 24','C44'),'du2':('a minute is 6000 ms','C44'),'du3':('only one unit character is skipped','C44'),'du4':('','C44'),'du5':('','C44'),
'cx1':('','C26'),'cx2':('','C26'),'cx3':('','C10/C26'),'cx4':('','C17: a condition about courses in progress'),'cx5':('','C36'),'cx6':('','C36'),'cx7':('a class counts as claimed only from its second claim','C25: a query over claimed courses sees every claimed course'),
}
